/-
Finite maps as association lists: the model of the hash maps and ordered maps of the code
(`FxHashMap`, `IndexMap`, `BTreeMap`). Standard-library containers are modelled by their contract; a
key occurs at most once (`Map.NodupKeys`, preserved by every operation).
-/
namespace Verif

/-- An association list; the first entry for a key is its value. Standard library (`HashMap`, `BTreeMap`) and
`indexmap`; not code of the repository. -/
abbrev Map (K V : Type) := List (K × V)

namespace Map
variable {K V : Type} [DecidableEq K]

/-- `map.get(k)`. Standard library (`HashMap`, `BTreeMap`) and `indexmap`; not code of the repository. -/
def get? (m : Map K V) (k : K) : Option V :=
  match m with
  | [] => none
  | (k', v) :: m => if k' = k then some v else get? m k

/-- `map.remove(k)`; the order of the other entries is kept (`IndexMap::shift_remove`). Standard library
(`HashMap`, `BTreeMap`) and `indexmap`; not code of the repository. -/
def erase (m : Map K V) (k : K) : Map K V := m.filter (fun e => e.1 ≠ k)

/-- `map.insert(k, v)`: overwrite in place, or append. Standard library (`HashMap`, `BTreeMap`) and `indexmap`;
not code of the repository. -/
def insert (m : Map K V) (k : K) (v : V) : Map K V :=
  match m with
  | [] => [(k, v)]
  | (k', v') :: m => if k' = k then (k, v) :: m else (k', v') :: insert m k v

/-- `map.contains_key(k)`. Standard library (`HashMap`, `BTreeMap`) and `indexmap`; not code of the repository.
-/
def contains (m : Map K V) (k : K) : Bool := (get? m k).isSome

/-- The keys, in entry order. Standard library (`HashMap`, `BTreeMap`) and `indexmap`; not code of the
repository. -/
def keys (m : Map K V) : List K := m.map Prod.fst

/-- No key occurs twice. Standard library (`HashMap`, `BTreeMap`) and `indexmap`; not code of the repository. -/
def NodupKeys (m : Map K V) : Prop := (keys m).Nodup

/-- Overwrite the value of a present key (`*map.get_mut(k).unwrap() = v`). Standard library (`HashMap`,
`BTreeMap`) and `indexmap`; not code of the repository. -/
def modify (m : Map K V) (k : K) (f : V → V) : Map K V :=
  m.map (fun e => if e.1 = k then (e.1, f e.2) else e)

end Map
end Verif
