import Verif.Model.Snapshot
import Verif.Spec.Membership

/-!
What C125 asks of a snapshot, in terms of what a handle reads off it and of the records in the member table.
-/

namespace Verif.Spec

open Verif Ep Verif.Snapshot

variable {I A : Type} [DecidableEq I] [DecidableEq A]

/-- What is asked of a snapshot that shows the membership of `e`: every member is there, once, with its current
state, address and metadata; nothing else is; the counts are the counts; and the local node is the one configured,
listed as `local_ref` has it but for the state. -/
structure ShowsNow (cfg : Cfg I A) (e : Ep I A) (s : Snap I A) : Prop where
  found : ∀ id, s.byId id = (member e id).map fun m => { m.server with state := m.state }
  once : (s.members.map (·.id)).Nodup
  known : ∀ n ∈ s.members, n.state = .alive ∨ n.state = .suspect ∨ n.state = .dead ∨ n.state = .left
  online : s.aliveCount = s.online.length
  count : s.memberCount = s.members.length ∧ s.memberCount = e.core.members.length
  health : s.health = e.core.awareness.score
  self : s.loc.id = cfg.localId ∧ s.loc.addr = cfg.advertise
  listed : ∃ st, s.byId cfg.localId = some { s.loc with state := st }

end Verif.Spec
