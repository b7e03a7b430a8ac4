import Verif.Model.Endpoint
/-
Specification vocabulary for membership: reachable states, what a call tells the node about its peers,
and the replay of membership events.
-/
namespace Verif.Spec
open Verif Ep
variable {I A : Type} [DecidableEq I] [DecidableEq A]

/-- A state some history of calls leads to: the node was created, then received any calls in any order,
with any arguments. -/
def Reachable (cfg : Cfg I A) (env : Env I A) (e : Ep I A) : Prop :=
  ∃ now e0 ops, Ep.tryNew cfg env now = .ok e0 ∧ e = Ep.run cfg env e0 ops

/-- The record of an id in the member table. -/
def member (e : Ep I A) (id : I) : Option (Member I A) :=
  e.core.members.find? (fun m => m.server.id = id)

/-- The node counts the member as up. -/
def Live (m : Member I A) : Prop := m.state = .alive ∨ m.state = .suspect

/-- The node counts the member as gone. -/
def Down (m : Member I A) : Prop := m.state = .dead ∨ m.state = .left

instance (m : Member I A) : Decidable (Live m) := by unfold Live; infer_instance
instance (m : Member I A) : Decidable (Down m) := by unfold Down; infer_instance

end Verif.Spec

namespace Verif.Ep
variable {I A : Type}

/-- The remote state list a call delivers. -/
def Op.remote : Op I A → List (PushNodeState I A)
  | .streamEvent (.payload (.pushPullReply _ states _ _ _)) _ => states
  | .streamEvent (.payload (.pushPullRequest _ states _ _ _)) _ => states
  | .mergeState remote _ => remote
  | _ => []

/-- The time argument of a call. -/
def Op.time? : Op I A → Option Nat
  | .packet _ _ now => some now
  | .timeout now => some now
  | .streamEvent _ now => some now
  | .mergeState _ now => some now
  | .ping _ now => some now
  | .startProbe now => some now
  | .startPushPull _ _ now => some now
  | .startPushPullDirect _ _ now => some now
  | .startUserMessage _ _ now => some now
  | .startUserMessageDirect _ _ now => some now
  | .dialSucceeded _ now => some now
  | .acceptStream _ now => some now
  | .startScheduling now => some now
  | .resetNodes now => some now
  | .leave now _ => some now
  | _ => none

/-- The time at which a call may find that a probe failed. The ack of a reliable ping carries the time
it was read from its stream. -/
def Op.probeTime : Op I A → Option Nat
  | .packet _ (.ack _ _) now => some now
  | .timeout now => some now
  | .streamEvent (.payload (.reliablePingAcked _ at_)) _ => some at_
  | _ => none

/-- All the times a call carries. -/
def Op.times (op : Op I A) : List Nat := op.time?.toList ++ op.probeTime.toList

/-- The claim an entry of a remote state list makes. -/
def claimOf (r : PushNodeState I A) : Alive I A :=
  { incarnation := r.incarnation, metadata := r.metadata, node := { id := r.id, addr := r.addr }
    pv := r.pv, dv := r.dv }

end Verif.Ep

namespace Verif.Spec
open Verif Ep
variable {I A : Type} [DecidableEq I] [DecidableEq A]

/-- The calls of a history carry times that do not decrease from call to call, none before `t0`. -/
def Chronological (t0 : Nat) (ops : List (Op I A)) : Prop :=
  (∀ op ∈ ops, ∀ t ∈ op.times, t0 ≤ t) ∧
    ops.Pairwise (fun a b => ∀ t ∈ a.times, ∀ t' ∈ b.times, t ≤ t')

/-- A call delivers an Alive claim: as a gossip packet, or as an alive entry of a push/pull. -/
inductive HearsAlive : Op I A → Alive I A → Nat → Prop
  | packet (src : A) (a : Alive I A) (now : Nat) : HearsAlive (.packet src (.alive a) now) a now
  | merge (op : Op I A) (r : PushNodeState I A) (now : Nat) : r ∈ op.remote → r.state = .alive →
      op.time? = some now → HearsAlive op (claimOf r) now

/-- A call delivers the claim that `id` failed or left, at an incarnation: a Dead packet, or a left entry
of a push/pull. -/
inductive HearsDead (id : I) : Op I A → Nat → Prop
  | packet (src : A) (d : BadState I) (now : Nat) : d.node = id →
      HearsDead id (.packet src (.dead d) now) d.incarnation
  | merge (op : Op I A) (r : PushNodeState I A) : r ∈ op.remote → r.state = .left → r.id = id →
      HearsDead id op r.incarnation

/-- The rule under which another address may take over an id: the member left, or it has been dead for
longer than the configured reclaim time (zero disables this). -/
def MayReclaim (cfg : Cfg I A) (m : Member I A) (now : Nat) : Prop :=
  m.state = .left ∨ (m.state = .dead ∧ 0 < cfg.deadNodeReclaim ∧ cfg.deadNodeReclaim < now - m.stateChange)

/-- The gossip queue holds the claim `msg` about `id`, not sent yet, and no other claim about `id`. -/
def Announces (e : Ep I A) (id : I) (msg : Message I A) : Prop :=
  ∃ b ∈ e.core.bcast.q, b.broadcast = (id, msg) ∧ b.transmits = 0 ∧
    ∀ b' ∈ e.core.bcast.q, b'.broadcast.1 = id → b' = b

/-- Fewer than `2^64 - 1` claims were ever queued, so the queue's id counter has not wrapped. -/
def QueueFresh (e : Ep I A) : Prop := e.core.bcast.calls < U64_MAX

/-- Packets carrying Alive claims: source, claim, time. -/
def deliverAlive (l : List (A × Alive I A × Nat)) : List (Op I A) :=
  l.map (fun d => .packet d.1 (.alive d.2.1) d.2.2)

/-- The claim messages. -/
inductive ClaimAbout (id : I) : Message I A → Prop
  | alive (a : Alive I A) : a.node.id = id → ClaimAbout id (.alive a)
  | suspect (s : BadState I) : s.node = id → ClaimAbout id (.suspect s)
  | dead (d : BadState I) : d.node = id → ClaimAbout id (.dead d)

/-- What an entry of a push/pull list claims, as the packet that says the same. -/
def entryMessage (localId : I) (r : PushNodeState I A) : Option (Message I A) :=
  match r.state with
  | .alive => some (.alive (claimOf r))
  | .left => some (.dead { incarnation := r.incarnation, node := r.id, src := localId })
  | .dead => some (.suspect { incarnation := r.incarnation, node := r.id, src := localId })
  | .suspect => some (.suspect { incarnation := r.incarnation, node := r.id, src := localId })
  | .unknown _ => none

/-- What the membership events tell an observer: for each id reported up, its address and metadata. -/
abbrev View (I A : Type) := I → Option (A × Bytes)

/-- Change the view at one id. -/
def View.put (v : View I A) (id : I) (x : Option (A × Bytes)) : View I A :=
  fun i => if i = id then x else v i

/-- One event. A join of an id already up, or an update or leave of an id not up, is impossible
(`none`). -/
def replay1 (v : View I A) : Event I A → Option (View I A)
  | .nodeJoined n => if (v n.id).isNone then some (v.put n.id (some (n.addr, n.metadata))) else none
  | .nodeUpdated n => if (v n.id).isSome then some (v.put n.id (some (n.addr, n.metadata))) else none
  | .nodeLeft n => if (v n.id).isSome then some (v.put n.id none) else none
  | _ => some v

/-- All events in order. -/
def replay (v : View I A) : List (Event I A) → Option (View I A)
  | [] => some v
  | ev :: evs => (replay1 v ev).bind (fun v => replay v evs)

/-- What the table says: the members alive or suspected, with address and metadata. -/
def liveView (e : Ep I A) : View I A := fun id =>
  match member e id with
  | some m => if Live m then some (m.server.addr, m.server.metadata) else none
  | none => none

/-- The events handed out during a history, in order, followed by those still queued. -/
def reported (cfg : Cfg I A) (env : Env I A) (e0 : Ep I A) (ops : List (Op I A)) : List (Event I A) :=
  (Ep.outs cfg env e0 ops).filterMap (fun o => match o with
    | .event ev => ev
    | _ => none) ++ (Ep.run cfg env e0 ops).core.events

end Verif.Spec
