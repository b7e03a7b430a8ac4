import Verif.Model.Varint
/-
Model of encryption keys, the keyring and its rotation operations.
Source: /repo/memberlist-proto/src/encryption/mod.rs
-/
namespace Verif

/-- `EncryptAlgorithm`, encryption/mod.rs:40-54 (both cipher features on). -/
inductive EncAlgo where
  | aesGcm
  | chacha
  | unknown (b : UInt8)
  deriving DecidableEq, Repr

/-- `EncryptAlgorithm::tag`, encryption/mod.rs:66-74. -/
def EncAlgo.tag : EncAlgo → UInt8
  | .aesGcm => 1
  | .chacha => 2
  | .unknown b => b

/-- `EncryptAlgorithm::from_tag`, encryption/mod.rs:80-88. -/
def EncAlgo.ofTag (b : UInt8) : EncAlgo :=
  if b = 1 then .aesGcm else if b = 2 then .chacha else .unknown b

/-- The cipher variant of a `SecretKey`, encryption/mod.rs:118-140. -/
inductive KeyKind where
  | aes128 | aes192 | aes256 | chacha
  deriving DecidableEq, Repr

/-- `SecretKey`, encryption/mod.rs:118-140: the variant and its key bytes. The fixed array length of
the Rust variants is not enforced in the type; no theorem needs it. -/
structure SecretKey where
  kind : KeyKind
  bytes : Bytes
  deriving DecidableEq, Repr

/-- `SecretKey::algorithm`, encryption/mod.rs:289-297. -/
def SecretKey.algorithm (k : SecretKey) : EncAlgo :=
  match k.kind with
  | .aes128 | .aes192 | .aes256 => .aesGcm
  | .chacha => .chacha

/-- `Keyring`, encryption/mod.rs:724-727. -/
structure Keyring where
  primary : SecretKey
  secondaries : List SecretKey
  deriving DecidableEq, Repr

/-- `KeyringError`, encryption/mod.rs (errors of `remove_secondary` and `promote`). encryption/mod.rs:695-703.
-/
inductive KeyringError where
  | isPrimary
  | notInRing
  deriving DecidableEq, Repr

namespace Keyring

/-- `Keyring::new`, encryption/mod.rs:731-736. -/
def new (primary : SecretKey) : Keyring := { primary := primary, secondaries := [] }

/-- `Keyring::insert_secondary`, encryption/mod.rs:767-775. -/
def insertSecondary (r : Keyring) (key : SecretKey) : Keyring :=
  if r.primary = key then r
  else if key ∈ r.secondaries then r
  else { r with secondaries := r.secondaries ++ [key] }

/-- `Keyring::with_secondaries`, encryption/mod.rs:741-750. -/
def withSecondaries (primary : SecretKey) (secondaries : List SecretKey) : Keyring :=
  secondaries.foldl insertSecondary (new primary)

/-- `secondaries.iter().position(|s| s.as_bytes() == key)`, encryption/mod.rs:788-792 and 806-810. -/
def position (key : Bytes) : List SecretKey → Option Nat
  | [] => none
  | s :: ss => if s.bytes = key then some 0 else (position key ss).map (· + 1)

/-- `Keyring::remove_secondary`, encryption/mod.rs:784-795. -/
def removeSecondary (r : Keyring) (key : Bytes) : Except KeyringError Keyring :=
  if r.primary.bytes = key then .error .isPrimary
  else
    match position key r.secondaries with
    | none => .error .notInRing
    | some pos => .ok { r with secondaries := r.secondaries.eraseIdx pos }

/-- `Keyring::promote`, encryption/mod.rs:802-815. `Vec::remove(pos)` on an index returned by
`position` cannot panic; the unreachable branch is an explicit error. -/
def promote (r : Keyring) (key : Bytes) : Except KeyringError Keyring :=
  if r.primary.bytes = key then .ok r
  else
    match position key r.secondaries with
    | none => .error .notInRing
    | some pos =>
      match r.secondaries[pos]? with
      | none => .error .notInRing
      | some newPrimary =>
        .ok { primary := newPrimary
              secondaries := r.primary :: r.secondaries.eraseIdx pos }

/-- The keys tried for decryption, in order: primary, then secondaries
(encryption/mod.rs:1067-1090). -/
def keys (r : Keyring) : List SecretKey := r.primary :: r.secondaries

end Keyring

/-- A rotation step applied to a ring. A failing call leaves the ring as it was (`&mut self` methods that return
`Err` before mutating). The methods at encryption/mod.rs:767, 784 and 802. -/
inductive KeyringOp where
  | insert (k : SecretKey)
  | remove (key : Bytes)
  | promote (key : Bytes)
  deriving DecidableEq, Repr

/-- Apply one keyring call; errors keep the ring. The methods at encryption/mod.rs:767, 784 and 802. -/
def KeyringOp.apply (r : Keyring) : KeyringOp → Keyring
  | .insert k => r.insertSecondary k
  | .remove key =>
    match r.removeSecondary key with
    | .ok r' => r'
    | .error _ => r
  | .promote key =>
    match r.promote key with
    | .ok r' => r'
    | .error _ => r

end Verif
