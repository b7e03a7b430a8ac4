import Verif.Spec.Membership
/-
Specification vocabulary for probing: pending probes and pings, the relays asked, and reported outcomes.
-/
namespace Verif.Spec
open Verif Ep
variable {I A : Type} [DecidableEq I] [DecidableEq A]

/-- The failure-detection probe or application ping that is waiting under a sequence number. -/
def pending (e : Ep I A) (seq : Nat) : Option (Probe I A) := e.net.probes.get? seq

/-- The relayed ping that is waiting under a sequence number. -/
def relaying (e : Ep I A) (seq : Nat) : Option (Forward A) := e.net.forwards.get? seq

/-- The relays that were asked to reach the target of a probe. -/
def relaysOf (p : Probe I A) : List A :=
  match p.phase with
  | .direct _ => []
  | .indirect _ peers _ _ _ => peers

/-- The relays that answered they could not reach the target. -/
def nackersOf (p : Probe I A) : List A :=
  match p.phase with
  | .direct _ => []
  | .indirect _ _ nackedBy _ _ => nackedBy

/-- The event reports the outcome of the ping or probe with this sequence number. -/
def isOutcome (seq : Nat) : Event I A → Bool
  | .pingCompleted s _ _ _ => s = seq
  | .pingFailed s _ => s = seq
  | _ => false

/-- The outcomes of `seq` that are queued but not handed out yet. -/
def queuedOutcomes (e : Ep I A) (seq : Nat) : List (Event I A) := e.core.events.filter (isOutcome seq)

/-- The outcomes of `seq` an observer sees who takes over the node in state `e` and makes the calls `ops`:
those handed out during the calls, then those still queued. -/
def outcomes (cfg : Cfg I A) (env : Env I A) (e : Ep I A) (ops : List (Op I A)) (seq : Nat) : List (Event I A) :=
  (reported cfg env e ops).filter (isOutcome seq)

/-- From whom an ack of this probe counts: the probed address, or a relay asked to reach it. -/
def Legitimate (p : Probe I A) (src : A) : Prop := src = p.target.addr ∨ src ∈ relaysOf p

instance (p : Probe I A) (src : A) : Decidable (Legitimate p src) := by unfold Legitimate; infer_instance

/-- The same probe or ping at another time: what identifies it never changes while it is pending. -/
structure SameProbe (p p' : Probe I A) : Prop where
  target : p'.target = p.target
  inc : p'.targetIncarnation = p.targetIncarnation
  gen : p'.targetGeneration = p.targetGeneration
  sentAt : p'.sentAt = p.sentAt
  kind : p'.kind = p.kind
  deadline : p'.failureDeadline = p.failureDeadline

/-- A call proves that the target of the probe is reachable in time: the ack of a legitimate responder, or the
ack read from the stream of a reliable ping with the same sequence number. -/
inductive Succeeds (seq : Nat) (p : Probe I A) : Op I A → Prop
  | ack (src : A) (payload : Bytes) (now : Nat) : Legitimate p src → now < p.failureDeadline →
      Succeeds seq p (.packet src (.ack seq payload) now)
  | stream (at_ now : Nat) : at_ < p.failureDeadline →
      Succeeds seq p (.streamEvent (.payload (.reliablePingAcked seq at_)) now)

/-- A call finds that the probe ran out of time: its deadline has passed, or a timer call finds that no direct ack
came within the probe timeout. -/
def RunsOut (cfg : Cfg I A) (p : Probe I A) (op : Op I A) : Prop :=
  ∃ now, op.probeTime = some now ∧ (p.failureDeadline ≤ now ∨
    (op = .timeout now ∧ p.sentAt + cfg.probeTimeout ≤ now ∧ relaysOf p = []))

/-- What may be reported for a ping. -/
def IsOutcomeOf (seq : Nat) (p : Probe I A) (ev : Event I A) : Prop :=
  (∃ rtt payload, ev = .pingCompleted seq p.target rtt payload) ∨ ev = .pingFailed seq p.target

/-- The penalty on the health score when a probe fails: 1 if no relay was asked, else the number of relays that
were asked and did not answer. -/
def penalty (p : Probe I A) : Nat :=
  if relaysOf p = [] then 1 else (relaysOf p).length - (nackersOf p).length

/-- Failure of the probe counts against the health score: it is a failure-detection probe, and its ping or a request to
a relay was really sent. -/
def counts (p : Probe I A) : Bool := p.kind = .detection && p.dispatched

/-- The address belongs to a member known to be alive, and is neither the node's own nor that of the probe's target: its
node could be asked to reach the target. -/
def CouldRelay (cfg : Cfg I A) (e : Ep I A) (p : Probe I A) (a : A) : Prop :=
  a ≠ cfg.advertise ∧ a ≠ p.target.addr ∧ ∃ id m, member e id = some m ∧ m.state = .alive ∧ m.server.addr = a

/-- The probe still waits for a direct answer only: no relay was asked. -/
def awaitsDirect (p : Probe I A) : Prop := ∃ d, p.phase = .direct d

/-- The request to a relay to reach the target of a probe. -/
def askFor (cfg : Cfg I A) (seq : Nat) (p : Probe I A) : Message I A :=
  .indirectPing { seq, source := { id := cfg.localId, addr := cfg.advertise }
                  target := { id := p.target.id, addr := p.target.addr } }

/-- The ping of a probe to its target. -/
def pingFor (cfg : Cfg I A) (seq : Nat) (p : Probe I A) : Message I A :=
  .ping { seq, source := { id := cfg.localId, addr := cfg.advertise }
          target := { id := p.target.id, addr := p.target.addr } }

/-- The datagram asks a relay to reach a target, under this sequence number. -/
def asksRelay (seq : Nat) : Transmit I A → Bool
  | .packet _ (.indirectPing q) => q.seq = seq
  | _ => false

/-- The application has disabled reliable pings with this member. -/
def optedOut (e : Ep I A) (id : I) : Prop := id ∈ e.net.reliableDisabled

/-! ### Relayed pings -/

/-- The relayed pings in progress, with the sequence numbers they were sent under. -/
def relays (e : Ep I A) : List (Nat × Forward A) := e.net.forwards

/-- Acks and nacks. -/
def isAnswer : Message I A → Bool
  | .ack _ _ => true
  | .nack _ => true
  | _ => false

/-- The acks and nacks in a datagram, with the address they are sent to. -/
def answersIn : Transmit I A → List (A × Message I A)
  | .packet dst m => ([m].filter isAnswer).map (fun m => (dst, m))
  | .compound dst ms => (ms.filter isAnswer).map (fun m => (dst, m))

/-- What the requester of a relayed ping is sent when a call ends it: the target's ack under the requester's own
sequence number if the call delivers that ack, else a nack. -/
def answerTo (op : Op I A) (f : Forward A) : A × Message I A :=
  (f.replyTo, match op with
    | .packet _ (.ack _ payload) _ => .ack f.requesterSeq payload
    | _ => .nack f.requesterSeq)

/-- Why a call ends the relayed ping waiting under `seq`: the target answers in time, or the timers are serviced at or
after its deadline. -/
inductive RelayEnds (seq : Nat) (f : Forward A) : Op I A → Prop
  | answered (payload : Bytes) (now : Nat) : now < f.deadline → RelayEnds seq f (.packet f.target (.ack seq payload) now)
  | expired (now : Nat) : f.deadline ≤ now → RelayEnds seq f (.timeout now)

end Verif.Spec
