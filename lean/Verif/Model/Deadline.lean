import Verif.Model.Map
/-
Model of the earliest-deadline index.
Source: /repo/memberlist-proto/src/endpoint/deadline/mod.rs
-/
namespace Verif

/-- `DeadlineIndex<K>`, endpoint/deadline/mod.rs:54-80. The test-only scan counter is left out; `seq`
is a `u64` counter, unbounded here. -/
structure DeadlineIndex (K : Type) where
  byDeadline : Map (Nat × Nat) K
  current : Map K (Nat × Nat)
  seq : Nat
  deriving Repr

namespace DeadlineIndex
variable {K : Type} [DecidableEq K]

/-- `DeadlineIndex::new`, endpoint/deadline/mod.rs:84-92. -/
def new : DeadlineIndex K := { byDeadline := [], current := [], seq := 0 }

/-- Lexicographic order on `(Instant, u64)`: the order of the `BTreeMap` keys. -/
def keyLe (a b : Nat × Nat) : Bool := a.1 < b.1 || (a.1 == b.1 && a.2 ≤ b.2)

/-- `BTreeMap::first_key_value` (by its contract): the least key. Standard library, field at
quic/deadline/mod.rs:73. -/
def firstKey : Map (Nat × Nat) K → Option (Nat × Nat)
  | [] => none
  | e :: m =>
    match firstKey m with
    | none => some e.1
    | some k => if keyLe e.1 k then some e.1 else some k

/-- `earliest`, endpoint/deadline/mod.rs:98-107. -/
def earliest (s : DeadlineIndex K) : Option Nat := (firstKey s.byDeadline).map Prod.fst

/-- `is_empty`, endpoint/deadline/mod.rs:122-124. -/
def isEmpty (s : DeadlineIndex K) : Bool := s.byDeadline.isEmpty

/-- `clear`, endpoint/deadline/mod.rs:131-134. -/
def clear (s : DeadlineIndex K) : DeadlineIndex K := { s with byDeadline := [], current := [] }

/-- `set`, endpoint/deadline/mod.rs:182-206. -/
def set (s : DeadlineIndex K) (key : K) (deadline : Option Nat) : DeadlineIndex K :=
  match deadline with
  | some d =>
    match s.current.get? key with
    | some (oldD, oldSeq) =>
      if oldD = d then s
      else
        let seq := s.seq + 1
        { byDeadline := (s.byDeadline.erase (oldD, oldSeq)).insert (d, seq) key
          current := s.current.insert key (d, seq)
          seq }
    | none =>
      let seq := s.seq + 1
      { byDeadline := s.byDeadline.insert (d, seq) key
        current := s.current.insert key (d, seq)
        seq }
  | none =>
    match s.current.get? key with
    | some old =>
      { s with byDeadline := s.byDeadline.erase old, current := s.current.erase key }
    | none => { s with current := s.current.erase key }

end DeadlineIndex
end Verif
