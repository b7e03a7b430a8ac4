import Verif.Model.Cluster
import Verif.Spec.Membership
import Verif.Spec.Messages
import Verif.Spec.Probe
/-
Specification vocabulary for clusters: which histories are possible, and what a node did in one.
-/
namespace Verif.Spec
open Verif Ep Cluster
variable {I A : Type} [DecidableEq I] [DecidableEq A]
variable (CI : DataCodec I) (CA : DataCodec A)

/-- Some bytes on the network decode to a packet with this message in it. -/
def Heard (wire : List Bytes) (m : Message I A) : Prop :=
  ∃ b ∈ wire, ∃ ms, parseMessages CI CA b = .ok ms ∧ m ∈ ms

/-- A message that says something about a member. -/
def AboutMembers : Message I A → Prop
  | .alive _ => True
  | .suspect _ => True
  | .dead _ => True
  | .pushPull _ => True
  | _ => False

/-- What the network may make a node do: membership claims and remote states come from the network. The limits on
numbers and metadata are those of the Rust types. A process does not queue 2^64 broadcasts. -/
def Possible (c : Sys I A) : Action I A → Prop
  | .start cfg env _ =>
    env.CI = CI ∧ env.CA = CA ∧ cfg.initialIncarnation < 2 ^ 32 ∧ cfg.initialMeta.length ≤ 65535 ∧
      CanonVersion cfg.pv ∧ CanonVersion cfg.dv
  | .crash _ => True
  | .call i op =>
    (∀ src m now, op = .packet src m now → AboutMembers m → Heard CI CA c.wire m) ∧
    (op.remote ≠ [] → ∃ pp, Heard CI CA c.wire (.pushPull pp) ∧ pp.states = op.remote) ∧
    (∀ md, op = .updateMeta md → md.length ≤ 65535) ∧
    (∀ P, (Cluster.act CI CA c (.call i op)).proc i = some P → P.ep.core.bcast.calls ≤ U64_MAX)

/-- A history every action of which is possible when it happens. -/
def History (acts : List (Action I A)) : Prop :=
  ∀ pre a post, acts = pre ++ a :: post → Possible CI CA (run CI CA pre) a

/-- The record of `id` in the table of node `j`. -/
def view (c : Sys I A) (j id : I) : Option (Member I A) := (c.proc j).bind (fun P => member P.ep id)

/-- What a record says about its node, as a claim. -/
def claim (m : Member I A) : Alive I A :=
  { incarnation := m.incarnation, metadata := m.server.metadata
    node := { id := m.server.id, addr := m.server.addr }, pv := m.server.pv, dv := m.server.dv }

/-- At some moment of the history the node named in the claim had exactly this record of itself. -/
def Announced (acts : List (Action I A)) (a : Alive I A) : Prop :=
  ∃ pre post m, acts = pre ++ post ∧ view (run CI CA pre) a.node.id a.node.id = some m ∧ claim m = a

/-- Node `i` left, in incarnation `k`. -/
def LeftAt (acts : List (Action I A)) (i : I) (k : Nat) : Prop :=
  ∃ pre now f post P m, acts = pre ++ .call i (.leave now f) :: post ∧ (run CI CA pre).proc i = some P ∧
    P.ep.core.lifecycle = .running ∧ member P.ep i = some m ∧ m.incarnation = k

/-- A failure-detection probe of `i`, begun by another node while it recorded `i` in incarnation `k`, was not answered
in time, and the call that found this gave it up: if a probe with its number is pending after the call, it is one that
asked no relay. -/
def Unanswered (acts : List (Action I A)) (i : I) (k : Nat) : Prop :=
  ∃ pre q op post P seq p, acts = pre ++ .call q op :: post ∧ q ≠ i ∧ (run CI CA pre).proc q = some P ∧
    pending P.ep seq = some p ∧ p.kind = .detection ∧ p.target.id = i ∧ p.targetIncarnation = k ∧
    RunsOut P.cfg p op ∧ ∀ p', pending (P.ep.step P.cfg P.env op).1 seq = some p' → relaysOf p' = []

/-- Node `i` is started at most once. -/
def NeverRestarts (acts : List (Action I A)) (i : I) : Prop :=
  ∀ pre cfg env now mid cfg' env' now' post,
    acts = pre ++ .start cfg env now :: mid ++ .start cfg' env' now' :: post → cfg.localId = i → cfg'.localId ≠ i

/-- The incarnation counter of node `i` does not reach its largest value. -/
def NeverWraps (acts : List (Action I A)) (i : I) : Prop :=
  ∀ a, Announced CI CA acts a → a.node.id = i → a.incarnation < 2 ^ 32 - 1

/-- A process with id `i` was started. -/
def WasStarted (acts : List (Action I A)) (i : I) : Prop := ∃ cfg env now, Action.start cfg env now ∈ acts ∧ cfg.localId = i

end Verif.Spec
