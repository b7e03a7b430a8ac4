import Verif.Model.Keyring
/-
What a keyring means: a primary key and the set of usable keys, with the effect of each call on them.
Independent of the order in which the ring stores its keys.
-/
namespace Verif.Spec

/-- A ring, abstractly. -/
structure Ring where
  primary : SecretKey
  usable : SecretKey → Prop

/-- The documented effect of a call. Keys are named by their bytes when removing and promoting. -/
inductive RingStep : Ring → KeyringOp → Ring → Prop
  /-- Insertion adds the key, and changes nothing else. -/
  | insert (R : Ring) (k : SecretKey) :
      RingStep R (.insert k) ⟨R.primary, fun x => R.usable x ∨ x = k⟩
  /-- The primary cannot be removed. -/
  | removePrimary (R : Ring) (key : Bytes) (h : R.primary.bytes = key) : RingStep R (.remove key) R
  /-- Removing takes away the key with those bytes, if any. -/
  | remove (R : Ring) (key : Bytes) (h : R.primary.bytes ≠ key) :
      RingStep R (.remove key) ⟨R.primary, fun x => R.usable x ∧ x.bytes ≠ key⟩
  /-- Promoting a key of the ring makes it primary; the set of usable keys stays. -/
  | promote (R : Ring) (k : SecretKey) (h : R.usable k) :
      RingStep R (.promote k.bytes) ⟨k, R.usable⟩
  /-- Promoting a key that is not in the ring changes nothing. -/
  | promoteAbsent (R : Ring) (key : Bytes) (h : ∀ k, R.usable k → k.bytes ≠ key) :
      RingStep R (.promote key) R

/-- A run of calls. -/
inductive RingRun : Ring → List KeyringOp → Ring → Prop
  | nil (R : Ring) : RingRun R [] R
  | cons (R R1 R2 : Ring) (op : KeyringOp) (ops : List KeyringOp) (h : RingStep R op R1)
      (t : RingRun R1 ops R2) : RingRun R (op :: ops) R2

/-- All keys that ever enter the ring: the initial ones and the inserted ones. -/
def everKeys (initial : List SecretKey) (ops : List KeyringOp) : List SecretKey :=
  initial ++ ops.filterMap (fun op => match op with | .insert k => some k | _ => none)

/-- No two different keys share their bytes (an AES-256 and a ChaCha20 key could). -/
def DistinctBytes (keys : List SecretKey) : Prop :=
  ∀ k ∈ keys, ∀ k' ∈ keys, k.bytes = k'.bytes → k = k'

end Verif.Spec
