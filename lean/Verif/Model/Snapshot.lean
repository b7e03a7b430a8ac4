import Verif.Model.Endpoint

/-!
The membership a handle reads: `MemberlistSnapshot` of memberlist-driver/src/snapshot/mod.rs, `snapshot_of` of
memberlist-reactor/src/snapshot.rs:20-47 (the compio drivers have the same as `refresh_snapshot`,
memberlist-compio/src/driver/stream/mod.rs:3015-3051), and the rule by which a driver republishes it,
`refresh_snapshot_if_changed`, driver/stream/mod.rs:3057-3071. The reactor driver skips that test on passes it counts
as without progress (memberlist-reactor/src/driver/stream/mod.rs:1898-1900); such a pass is a history with no
`refresh` there. The 64-bit version is unbounded, as everywhere.
-/

namespace Verif.Snapshot

open Verif

/-- `MemberlistSnapshot`, memberlist-driver/src/snapshot/mod.rs:21-27. -/
structure Snap (I A : Type) where
  members : List (NodeState I A)
  loc : NodeState I A
  aliveCount : Nat
  memberCount : Nat
  health : Nat
deriving DecidableEq, Repr

variable {I A : Type} [DecidableEq I]

/-- `member_liveness(..).unwrap_or(State::Unknown(0))`, memberlist-reactor/src/snapshot.rs:30,
memberlist-proto/src/endpoint/mod.rs:1212-1214. -/
def liveness (e : Ep I A) (id : I) : NState := ((e.core.members.get id).map (·.state)).getD (.unknown 0)

/-- `snapshot_of`, memberlist-reactor/src/snapshot.rs:20-47; `none` is the panic of its `expect`. -/
def snapshotOf (cfg : Cfg I A) (e : Ep I A) : Option (Snap I A) :=
  match e.core.members.get cfg.localId with
  | none => none
  | some m => some {
      members := e.core.members.map fun m => { m.server with state := liveness e m.server.id }
      loc := m.server
      aliveCount := (e.core.members.filter fun m => liveness e m.server.id = .alive).length
      memberCount := e.core.members.length
      health := e.core.awareness.score }

/-- `by_id`, memberlist-driver/src/snapshot/mod.rs:109-114. -/
def Snap.byId (s : Snap I A) (id : I) : Option (NodeState I A) := s.members.find? fun n => n.id = id

/-- `online_members`, memberlist-driver/src/snapshot/mod.rs:118-123. -/
def Snap.online (s : Snap I A) : List (NodeState I A) := s.members.filter fun n => n.state = .alive

/-- What a driver publishes, and the version it did so at. -/
structure Cell (I A : Type) where
  snap : Option (Snap I A)
  last : Nat
deriving DecidableEq, Repr

/-- The first publication, memberlist-compio/src/driver/stream/mod.rs:637-640. -/
def Cell.first (cfg : Cfg I A) (e : Ep I A) : Cell I A := ⟨snapshotOf cfg e, e.core.snapVer⟩

/-- `refresh_snapshot_if_changed`, memberlist-compio/src/driver/stream/mod.rs:3057-3071. -/
def Cell.refresh (cfg : Cfg I A) (e : Ep I A) (c : Cell I A) : Cell I A :=
  if e.core.snapVer ≠ c.last then ⟨snapshotOf cfg e, e.core.snapVer⟩ else c

/-- What a driver does, as far as the snapshot is concerned: call the engine, or republish. -/
inductive Move (I A : Type) where
  | call (op : Ep.Op I A)
  | refresh

variable [DecidableEq A]

/-- A history of both. Model only. -/
def drive (cfg : Cfg I A) (env : Env I A) (e : Ep I A) (c : Cell I A) : List (Move I A) → Ep I A × Cell I A
  | [] => (e, c)
  | .call op :: l => drive cfg env (e.step cfg env op).1 c l
  | .refresh :: l => drive cfg env e (c.refresh cfg e) l

end Verif.Snapshot
