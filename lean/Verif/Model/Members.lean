import Verif.Model.Map
/-
Model of the member table: a vector of members plus an index map from id to vector position.
Source: /repo/memberlist-proto/src/members/mod.rs
-/
namespace Verif

/-- `Members<I, A>`, members/mod.rs:239-243. `M` is the member record; the code reads a member's id
with `state_ref().id_ref()`, here the function `idOf`. The stored local identity is not part of the
table. -/
structure Members (I M : Type) where
  nodes : List M
  nodeMap : Map I Nat
  deriving Repr

namespace Members
variable {I M : Type} [DecidableEq I]

/-- `Members::new`, members/mod.rs:249-255. -/
def new : Members I M := { nodes := [], nodeMap := [] }

/-- `len`, members/mod.rs:265-267. -/
def len (s : Members I M) : Nat := s.nodes.length

/-- `contains`, members/mod.rs:307-309. -/
def contains (s : Members I M) (id : I) : Bool := s.nodeMap.contains id

/-- `get`, members/mod.rs:313-316. -/
def get (s : Members I M) (id : I) : Option M :=
  match s.nodeMap.get? id with
  | none => none
  | some idx => s.nodes[idx]?

/-- `get_mut` (members/mod.rs:320-323) followed by an in-place change `f` of the record. -/
def update (s : Members I M) (id : I) (f : M → M) : Members I M :=
  match s.nodeMap.get? id with
  | none => s
  | some idx =>
    match s.nodes[idx]? with
    | none => s
    | some m => { s with nodes := s.nodes.set idx (f m) }

/-- `remove`, members/mod.rs:327-336. The outer `Option` is `none` for a panic (`Vec::remove` out of
bounds). -/
def remove (s : Members I M) (id : I) : Option (Members I M × Option M) :=
  match s.nodeMap.get? id with
  | none => some (s, none)
  | some idx =>
    let map := s.nodeMap.erase id
    match s.nodes[idx]? with
    | none => none
    | some m =>
      some ({ nodes := s.nodes.eraseIdx idx
              nodeMap := map.map (fun e => (e.1, if e.2 > idx then e.2 - 1 else e.2)) },
            some m)

/-- `Vec::swap(i, j)`; `none` is the out-of-bounds panic. members/mod.rs:352 and 404. -/
def swapNodes (l : List M) (i j : Nat) : Option (List M) :=
  match l[i]?, l[j]? with
  | some a, some b => some ((l.set i b).set j a)
  | _, _ => none

/-- `*node_map.get_mut(&id).unwrap() = v`; `none` is the `unwrap` panic. members/mod.rs:340-410. -/
def setSlot (m : Map I Nat) (id : I) (v : Nat) : Option (Map I Nat) :=
  match m.get? id with
  | none => none
  | some _ => some (m.modify id (fun _ => v))

/-- One iteration of the shuffle loop body, members/mod.rs:348-354. -/
def shuffleSwap (idOf : M → I) (s : Members I M) (i j : Nat) : Option (Members I M) :=
  if i ≠ j then
    match s.nodes[i]?, s.nodes[j]? with
    | some mi, some mj =>
      match swapNodes s.nodes i j, setSlot s.nodeMap (idOf mi) j with
      | some nodes, some m1 =>
        match setSlot m1 (idOf mj) i with
        | some m2 => some { nodes, nodeMap := m2 }
        | none => none
      | _, _ => none
    | _, _ => none
  else some s

/-- The loop `for i in (1..n).rev()`, members/mod.rs:347; `i` counts down. The draw
`rng.random_range(0..=i)` is `pick i % (i + 1)` for an arbitrary function `pick`. -/
def shuffleLoop (idOf : M → I) (pick : Nat → Nat) : Nat → Members I M → Option (Members I M)
  | 0, s => some s
  | i + 1, s =>
    match shuffleSwap idOf s (i + 1) (pick (i + 1) % (i + 2)) with
    | some s' => shuffleLoop idOf pick i s'
    | none => none

/-- `shuffle`, members/mod.rs:345-357. -/
def shuffle (idOf : M → I) (s : Members I M) (pick : Nat → Nat) : Option (Members I M) :=
  shuffleLoop idOf pick (s.nodes.length - 1) s

/-- `insert`, members/mod.rs:372-382. -/
def insert (idOf : M → I) (s : Members I M) (m : M) : Option (Members I M × Option M) :=
  match s.nodeMap.get? (idOf m) with
  | some idx =>
    match s.nodes[idx]? with
    | none => none
    | some old => some ({ s with nodes := s.nodes.set idx m }, some old)
  | none =>
    some ({ nodes := s.nodes ++ [m], nodeMap := s.nodeMap.insert (idOf m) s.nodes.length }, none)

/-- `insert_at_random_at`, members/mod.rs:390-410; `none` for the assertion failures and panics. -/
def insertAt (idOf : M → I) (s : Members I M) (m : M) (target : Nat) : Option (Members I M) :=
  if s.contains (idOf m) then none
  else
    let n := s.nodes.length
    if target > n then none
    else
      let s := { nodes := s.nodes ++ [m], nodeMap := s.nodeMap.insert (idOf m) n }
      if target ≠ n then
        match swapNodes s.nodes n target with
        | none => none
        | some nodes =>
          match nodes[n]? with
          | none => none
          | some displaced =>
            match setSlot s.nodeMap (idOf m) target with
            | none => none
            | some m1 =>
              match setSlot m1 (idOf displaced) n with
              | none => none
              | some m2 => some { nodes, nodeMap := m2 }
      else some s

end Members
end Verif
