import Verif.Model.Core
import Verif.Model.Stream
/-
Model of the rest of the endpoint: probing, acks, relayed pings, stream intents, timers, gossip,
push/pull, user broadcasts and leaving.
Source: /repo/memberlist-proto/src/endpoint/mod.rs, probe.rs, ack/mod.rs, event/mod.rs
See Model/Core.lean for the simplifications. In addition: tracing is left out, and of the metrics only
the counters the endpoint itself increments are kept.
-/
namespace Verif

/-- `ProbeKind`, probe.rs:45-53. -/
inductive ProbeKind where
  | detection | ping
  deriving DecidableEq, Repr

/-- `ProbePhase<A>` with its two payloads, probe.rs:114-172. -/
inductive ProbePhase (A : Type) where
  | direct (deadline : Nat)
  | indirect (expectedNacks : Nat) (peers nackedBy : List A) (stream : Option Nat) (deadline : Nat)
  deriving DecidableEq, Repr

/-- `Probe<I, A>`, probe.rs:56-108. -/
structure Probe (I A : Type) where
  target : NodeState I A
  targetIncarnation : Nat
  targetGeneration : Nat
  sentAt : Nat
  kind : ProbeKind
  dispatched : Bool
  failureDeadline : Nat
  phase : ProbePhase A
  deriving DecidableEq, Repr

namespace Probe
variable {I A : Type}
/-- `Probe::new_direct`, probe.rs:192-215. -/
def newDirect (target : NodeState I A) (inc gen now : Nat) (kind : ProbeKind) (pt failure : Nat) :
    Probe I A :=
  { target, targetIncarnation := inc, targetGeneration := gen, sentAt := now, kind
    dispatched := false, failureDeadline := failure, phase := .direct (now + pt) }
/-- `direct_deadline`, probe.rs:234-236. -/
def directDeadline (p : Probe I A) (pt : Nat) : Nat := p.sentAt + pt
/-- `deadline`, probe.rs:261-266. -/
def deadline (p : Probe I A) : Nat :=
  match p.phase with
  | .direct d => min d p.failureDeadline
  | .indirect _ _ _ _ d => d
end Probe

/-- `AckKind<A>`, ack/mod.rs; `forward` carries the address to relay to. ack/mod.rs:13-23. -/
inductive AckKind (A : Type) where
  | probe | ping
  | forward (replyTo : A)
  deriving DecidableEq, Repr

/-- `AckEntry<A>`, ack/mod.rs. ack/mod.rs:54-58. -/
structure AckEntry (A : Type) where
  sent : Nat
  deadline : Nat
  kind : AckKind A
  deriving DecidableEq, Repr

/-- `IndirectForward<A>`, endpoint/mod.rs:164-185. -/
structure Forward (A : Type) where
  replyTo : A
  target : A
  requesterSeq : Nat
  deadline : Nat
  deriving DecidableEq, Repr

/-- `PendingStreamIntent<I, A>`, endpoint/mod.rs:150-158. -/
structure Intent (A : Type) where
  peer : A
  kind : OutKind
  deadline : Nat
  encoded : Bytes
  deriving DecidableEq, Repr

/-- `Transmit<I, A>`, event/mod.rs:349-361. -/
inductive Transmit (I A : Type) where
  | packet (to : A) (msg : Message I A)
  | compound (to : A) (msgs : List (Message I A))
  deriving DecidableEq, Repr

/-- `DialIntent<A>`, event/mod.rs; the exchange kind is that of the intent. event/mod.rs:681-686. -/
structure DialIntent (A : Type) where
  stream : Nat
  peer : A
  deadline : Nat
  deriving DecidableEq, Repr

/-- `EndpointEvent<I, A>`, event/mod.rs:1106-1125: the payload events of a stream and the three
reports of the layer above. -/
inductive EndpointEvent (I A : Type) where
  | payload (p : PayloadEvent I A)
  | reliablePingFailed (seq : Nat)
  | streamClosed
  | streamErrored
  deriving DecidableEq, Repr

/-- `StreamCommand<I, A>`, event/mod.rs:1177-1183. The response is kept as the message whose encoding
is sent. -/
inductive StreamCommand (I A : Type) where
  | sendResponse (p : PushPull I A)
  | close
  deriving DecidableEq, Repr

/-- `Error`, error/mod.rs: the errors of the endpoint's calls, without their payloads. error/mod.rs:11-119. -/
inductive EpErr where
  | notRunning
  | ackPayloadExceedsMtu
  | localStateExceedsFrame
  | userBroadcastExceedsMtu
  | userPacketExceedsMtu
  | metaExceedsCap
  | unencodablePingTarget
  | pingExceedsMtu
  deriving DecidableEq, Repr

/-- `EndpointInitError`, error/mod.rs. error/mod.rs:182-265. -/
inductive InitErr where
  | metaTooLarge
  | awarenessMultiplierZero
  | gossipMtuTooSmall
  | gossipMtuTooLarge
  | invalidMaxStreamFrameSize
  | unencodableLocalIdentity
  | maxStreamFrameSizeTooSmall
  | localStateExceedsFrame
  deriving DecidableEq, Repr

/-- The probing and transport part of `Endpoint`, endpoint/mod.rs:243-258, 314, 336-353. -/
structure Net (I A : Type) where
  acks : Map Nat (AckEntry A) := []
  probes : Map Nat (Probe I A) := []
  forwards : Map Nat (Forward A) := []
  nextSeq : Nat := 0
  transmits : List (Transmit I A) := []
  intents : Map Nat (Intent A) := []
  intentIdx : DeadlineIndex Nat := .new
  nextStreamId : Nat := 1
  ackPayload : Bytes := []
  reliableDisabled : List I := []
  fwdDropped : Nat := 0
  fwdOversized : Nat := 0
  payloadsWithheld : Nat := 0

/-- `Endpoint<I, A, R>`, endpoint/mod.rs:215-368. `tick` counts the uses of the environment. The cached
push/pull response is kept as the message whose (compressed) encoding is cached. -/
structure Ep (I A : Type) where
  core : Core I A
  net : Net I A := {}
  user : UserBroadcasts Unit Bytes
  probeIndex : Nat := 0
  probesSinceReset : Nat := 0
  localState : Bytes
  cached : PushPull I A
  cachedVer : Nat := 0
  cachedDirty : Bool := true
  leaveFlush : Option Nat := none
  nextProbe : Option Nat := none
  nextGossip : Option Nat := none
  nextPushPull : Option Nat := none
  tick : Nat := 0

/-- `Broadcast for BytesBroadcast`, broadcast/mod.rs:585-627; `NoId` has one value. -/
def bytesOps : BroadcastOps Unit Bytes Bytes where
  id _ := none
  invalidates _ _ := false
  message b := b
  encodedLen b := min b.length U64_MAX
  isUnique _ := true

/-- `USER_PART_OVERHEAD`, endpoint/mod.rs:960. -/
def USER_PART_OVERHEAD : Nat := COMPOUND_MAX_PART_PREFIX_LEN + 1 + 5

/-- `LOCAL_STATE_FRAME_BUDGET`, endpoint/mod.rs:91. -/
def LOCAL_STATE_FRAME_BUDGET : Nat := 1024 * 1024

/-- `GOSSIP_MTU_MIN` and `MAX_GOSSIP_MTU`, config/mod.rs:29, 39. -/
def GOSSIP_MTU_MIN : Nat := 512
/-- See `GOSSIP_MTU_MIN`. config/mod.rs:29. -/
def MAX_GOSSIP_MTU : Nat := 65507

/-- Reservoir sampling, the contract of `IteratorRandom::sample` of the `rand` crate used by
`pick_random`, endpoint/mod.rs:4873-4884: the first `k` items, each later item replacing a random slot. -/
def reservoir {T : Type} (k : Nat) (σ : Nat → Nat) : Nat → List T → List T → List T
  | _, [], res => res
  | i, x :: xs, res =>
    if res.length < k then reservoir k σ (i + 1) xs (res ++ [x])
    else
      let j := σ i % (i + 1)
      reservoir k σ (i + 1) xs (if j < k then res.set j x else res)

/-- `pick_random`, endpoint/mod.rs:4873-4884. -/
def pickRandom {T : Type} (pool : List T) (k : Nat) (σ : Nat → Nat) : List T :=
  reservoir k σ 0 pool []

/-- `ceil(log2(n))`, the least `k` with `n ≤ 2^k`. Used at endpoint/mod.rs:4897. -/
def ceilLog2 (n : Nat) : Nat := if n ≤ 1 then 0 else Nat.log2 (n - 1) + 1

/-- `push_pull_scale`, endpoint/mod.rs:4891-4902, with the logarithms computed exactly instead of in
`f64`. -/
def pushPullScale (interval n : Nat) : Nat :=
  if n ≤ 32 then interval
  else
    let t := interval * (ceilLog2 n - 5 + 1)
    if t ≤ DURATION_MAX then t else interval

namespace Ep
variable {I A : Type} [DecidableEq I] [DecidableEq A]
variable (cfg : Cfg I A) (env : Env I A)

/-! ### Small helpers -/

section
omit [DecidableEq I] [DecidableEq A]
/-- `is_running`, endpoint/mod.rs:400-402. -/
def isRunning (e : Ep I A) : Bool := e.core.lifecycle = .running

/-- `emit_event` on the endpoint, endpoint/mod.rs:467-479. -/
def emit (e : Ep I A) (ev : Event I A) : Ep I A := { e with core := e.core.emit ev }

/-- `pending_events.push_back`, which skips the snapshot bump of `emit_event`. endpoint/mod.rs:722. -/
def pushEvent (e : Ep I A) (ev : Event I A) : Ep I A :=
  { e with core := { e.core with events := e.core.events ++ [ev] } }

/-- `pending_transmits.push_back`. The output queue read by `poll_transmit`, endpoint/mod.rs. -/
def send (e : Ep I A) (t : Transmit I A) : Ep I A :=
  { e with net := { e.net with transmits := e.net.transmits ++ [t] } }

/-- Advance the tick that indexes the environment. Model only, no counterpart in the code: see `Env`. -/
def tickUp (e : Ep I A) : Ep I A := { e with tick := e.tick + 1 }

/-- The local node as a message field. The local id and address of the endpoint, endpoint/mod.rs, as a `Node`,
node.rs:12-15. -/
def localNode : TNode I A := { id := cfg.localId, addr := cfg.advertise }

/-- Is a sequence number in use, endpoint/mod.rs:992-994. -/
def seqInUse (n : Net I A) (s : Nat) : Bool :=
  n.probes.contains s || n.forwards.contains s || n.acks.contains s

/-- The loop of `allocate_seq`, endpoint/mod.rs:987-998. `none` when the fuel runs out; the caller
gives enough unless every sequence number is in use, when the code would not terminate. -/
def allocLoop (n : Net I A) : Nat → Nat → Option Nat
  | 0, _ => none
  | fuel + 1, s =>
    let s := (s + 1) % 2 ^ 32
    if s = 0 ∨ seqInUse n s then allocLoop n fuel s else some s

/-- `allocate_seq`, endpoint/mod.rs:981-999. -/
def allocSeq (n : Net I A) : Option Nat :=
  allocLoop n (n.probes.length + n.forwards.length + n.acks.length + 2) n.nextSeq

/-- `insert_intent`, endpoint/mod.rs:631-634. -/
def insertIntent (n : Net I A) (id : Nat) (i : Intent A) : Net I A :=
  { n with intentIdx := n.intentIdx.set id (some i.deadline), intents := n.intents.insert id i }

/-- `remove_intent`, endpoint/mod.rs:642-645. -/
def removeIntent (n : Net I A) (id : Nat) : Net I A :=
  { n with intentIdx := n.intentIdx.set id none, intents := n.intents.erase id }

/-- `retire_reliable_fallback`, endpoint/mod.rs:1029-1038. -/
def retireFallback (n : Net I A) (seq : Nat) : Net I A :=
  { n with probes := n.probes.modify seq (fun p => match p.phase with
      | .indirect ex ps nb _ d => { p with phase := .indirect ex ps nb none d }
      | .direct _ => p) }

/-- Removing an intent and, if it was a reliable ping, retiring the fallback of its probe:
endpoint/mod.rs:662-666, 1007-1020. -/
def dropIntent (n : Net I A) (id : Nat) : Net I A :=
  match n.intents.get? id with
  | none => n
  | some i =>
    let n := removeIntent n id
    match i.kind with
    | .reliablePing seq => retireFallback n seq
    | _ => n
end

/-! ### Probes and acks -/

omit [DecidableEq I] [DecidableEq A] in
/-- The health penalty of a failed detection probe, endpoint/mod.rs:2243-2263. -/
def severity (p : Probe I A) : Nat :=
  match p.phase with
  | .indirect expected _ nackedBy _ _ =>
    if expected > 0 then expected - nackedBy.length else 1
  | .direct _ => 1

omit [DecidableEq A] in
/-- Is the probed membership still the current one, endpoint/mod.rs:2272-2281. -/
def sameMember (t : Table I A) (p : Probe I A) : Bool :=
  p.targetGeneration ≠ 0 && (match t.get p.target.id with
    | some m => m.gen == p.targetGeneration
    | none => false)

omit [DecidableEq I] [DecidableEq A] in
/-- Taking a failed probe out, with its ack entry and its unused fallback intent,
endpoint/mod.rs:2204-2236. -/
def discardProbe (n : Net I A) (seq : Nat) (p : Probe I A) : Net I A :=
  let n := { n with probes := n.probes.erase seq, acks := n.acks.erase seq }
  match p.phase with
  | .indirect _ _ _ (some rid) _ => removeIntent n rid
  | _ => n

omit [DecidableEq A] in
/-- `probe_terminate_failure`, endpoint/mod.rs:2204-2307. -/
def probeTerminateFailure (e : Ep I A) (seq now : Nat) : Ep I A :=
  match e.net.probes.get? seq with
  | none => e
  | some p =>
    let e := { e with net := discardProbe e.net seq p }
    match p.kind with
    | .detection =>
      if !p.dispatched then e
      else
        let core := { e.core with awareness := e.core.awareness.recordFailure (severity p) }.bump
        let core := if sameMember core.members p then
          core.processSuspect cfg env
            { incarnation := p.targetIncarnation, node := p.target.id, src := cfg.localId } now
          else core
        { e with core }
    | .ping => e.emit (.pingFailed seq p.target)

omit [DecidableEq A] in
/-- `complete_probe_success`, endpoint/mod.rs:2096-2164. -/
def completeProbeSuccess (e : Ep I A) (seq : Nat) (directAck : Bool) (payload : Bytes) (now : Nat) :
    Ep I A :=
  match e.net.probes.get? seq with
  | none => e
  | some p =>
    if now ≥ p.failureDeadline then e.probeTerminateFailure cfg env seq now
    else
      let e := { e with
        net := { e.net with probes := e.net.probes.erase seq, acks := e.net.acks.erase seq } }
      let rtt := now - p.sentAt
      match p.kind with
      | .detection =>
        let core := { e.core with awareness := e.core.awareness.recordSuccess }
        let core := core.bump
        let e := { e with core }
        if directAck then e.emit (.pingCompleted seq p.target rtt payload) else e
      | .ping => e.emit (.pingCompleted seq p.target rtt payload)

omit [DecidableEq I] in
/-- `ack_source_is_valid`, endpoint/mod.rs:2071-2091. -/
def ackSourceValid (n : Net I A) (seq : Nat) (kind : AckKind A) (src : A) : Bool :=
  match kind with
  | .probe | .ping =>
    match n.probes.get? seq with
    | none => false
    | some p =>
      decide (p.target.addr = src) || (match p.phase with
        | .indirect _ peers _ _ _ => decide (src ∈ peers)
        | .direct _ => false)
  | .forward _ =>
    match n.forwards.get? seq with
    | none => false
    | some f => decide (f.target = src)

omit [DecidableEq I] in
/-- Is the ack from the probed address itself, endpoint/mod.rs:2021-2024, 2043-2046. -/
def directAck (n : Net I A) (seq : Nat) (src : A) : Bool :=
  match n.probes.get? seq with
  | some p => decide (p.target.addr = src)
  | none => false

/-- `handle_ack`, endpoint/mod.rs:1969-2050. -/
def handleAck (e : Ep I A) (src : A) (seq : Nat) (payload : Bytes) (now : Nat) : Ep I A :=
  match e.net.acks.get? seq with
  | none => e
  | some entry =>
    if !ackSourceValid e.net seq entry.kind src then e
    else
      let consumed := { e with net := { e.net with acks := e.net.acks.erase seq } }
      match entry.kind with
      | .forward replyTo =>
        match e.net.forwards.get? seq with
        | none => consumed
        | some fwd =>
          if now ≥ fwd.deadline then e
          else
            let e := { consumed with
              net := { consumed.net with forwards := consumed.net.forwards.erase seq } }
            e.send (.packet replyTo (.ack fwd.requesterSeq payload))
      | _ => consumed.completeProbeSuccess cfg env seq (directAck e.net seq src) payload now

omit [DecidableEq I] in
/-- `handle_nack`, endpoint/mod.rs:2319-2350. -/
def handleNack (e : Ep I A) (src : A) (seq now : Nat) : Ep I A :=
  match e.net.probes.get? seq with
  | none => e
  | some p =>
    if now ≥ p.failureDeadline then e
    else
      match p.phase with
      | .indirect ex peers nackedBy st d =>
        if src ∈ peers ∧ src ∉ nackedBy then
          { e with net := { e.net with
              probes := e.net.probes.modify seq (fun p =>
                { p with phase := .indirect ex peers (nackedBy ++ [src]) st d }) } }
        else e
      | .direct _ => e

/-- Is there a member with this id at this address, endpoint/mod.rs:1945-1950. -/
def knownAt (t : Table I A) (id : I) (src : A) : Bool :=
  match t.get id with
  | some m => m.server.addr = src
  | none => false

/-- `handle_ping`, endpoint/mod.rs:1932-1964. -/
def handlePing (e : Ep I A) (src : A) (p : Ping I A) : Ep I A :=
  if p.target.id ≠ cfg.localId then e
  else
    if !cfg.ackPayloadToMembersOnly || knownAt e.core.members p.source.id src then
      e.send (.packet src (.ack p.seq e.net.ackPayload))
    else
      let e := { e with net := { e.net with payloadsWithheld := e.net.payloadsWithheld + 1 } }
      e.send (.packet src (.ack p.seq []))

omit [DecidableEq I] [DecidableEq A] in
/-- `probe_packet_within_mtu`, endpoint/mod.rs:2821-2826. -/
def fitsMtu (m : Message I A) : Bool := wireLen env.CI env.CA m ≤ cfg.gossipMtu

omit [DecidableEq I] [DecidableEq A] in
/-- `push_probe_packet_within_mtu`, endpoint/mod.rs:2838-2847. -/
def pushWithinMtu (e : Ep I A) (to : A) (m : Message I A) : Ep I A × Bool :=
  if fitsMtu cfg env m then (e.send (.packet to m), true) else (e, false)

/-- `handle_indirect_ping`, endpoint/mod.rs:2890-3003. -/
def handleIndirectPing (e : Ep I A) (src : A) (p : Ping I A) (now : Nat) : Ep I A :=
  if src ≠ p.source.addr then e
  else if e.net.forwards.length ≥ cfg.maxIndirectForwards then
    { e with net := { e.net with fwdDropped := e.net.fwdDropped + 1 } }
  else if e.net.forwards.any (fun f =>
      f.2.replyTo = p.source.addr ∧ f.2.requesterSeq = p.seq ∧ f.2.target = p.target.addr) then e
  else
    match allocSeq e.net with
    | none => e
    | some seq =>
      let e := { e with net := { e.net with nextSeq := seq } }
      let msg : Message I A := .ping { seq, source := localNode cfg, target := p.target }
      if !fitsMtu cfg env msg then
        let e := { e with net := { e.net with fwdOversized := e.net.fwdOversized + 1 } }
        e.send (.packet p.source.addr (.nack p.seq))
      else
        let deadline := now + cfg.probeTimeout
        let e := { e with net := { e.net with
          acks := e.net.acks.insert seq { sent := now, deadline, kind := .forward p.source.addr }
          forwards := e.net.forwards.insert seq
            { replyTo := p.source.addr, target := p.target.addr, requesterSeq := p.seq, deadline } } }
        e.send (.packet p.target.addr msg)

omit [DecidableEq I] in
/-- The node an application ping is reported for, endpoint/mod.rs:3040-3063: the member's record if it has
the pinged address. -/
def pingTarget (member : Option (Member I A)) (node : TNode I A) : NodeState I A :=
  match member with
  | some m =>
    if m.server.addr = node.addr then m.server
    else { id := node.id, addr := node.addr, metadata := [], state := .alive, pv := .v1, dv := .v1 }
  | none => { id := node.id, addr := node.addr, metadata := [], state := .alive, pv := .v1, dv := .v1 }

/-- `ping`, endpoint/mod.rs:3030-3128. -/
def ping (e : Ep I A) (node : TNode I A) (now : Nat) : Ep I A × Except EpErr Nat :=
  if !e.isRunning then (e, .error .notRunning)
  else
    let member := e.core.members.get node.id
    let target := pingTarget member node
    let inc := match member with | some m => m.incarnation | none => 0
    let gen := match member with | some m => m.gen | none => 0
    match allocSeq e.net with
    | none => (e, .error .notRunning)
    | some seq =>
      let e := { e with net := { e.net with nextSeq := seq } }
      let msg : Message I A := .ping { seq, source := localNode cfg, target := node }
      match encodeTyped env.CI env.CA msg with
      | .error _ => (e, .error .unencodablePingTarget)
      | .ok b =>
        if b.length > cfg.gossipMtu then (e, .error .pingExceedsMtu)
        else
          let pt := cfg.probeTimeout
          let p := { Probe.newDirect target inc gen now .ping pt (now + pt) with dispatched := true }
          let e := { e with net := { e.net with
            probes := e.net.probes.insert seq p
            acks := e.net.acks.insert seq { sent := now, deadline := p.directDeadline pt, kind := .ping } } }
          (e.send (.packet node.addr msg), .ok seq)

omit [DecidableEq A] in
/-- The scan of `next_probe_target`, endpoint/mod.rs:2857-2873: `fuel` candidates are left, starting
`offset` positions after the probe index. -/
def probeScan (t : Table I A) (index : Nat) : Nat → Nat → Option (Member I A × Nat)
  | 0, _ => none
  | fuel + 1, offset =>
    let idx := (index + offset) % t.length
    match t[idx]? with
    | none => probeScan t index fuel (offset + 1)
    | some m =>
      if m.id = cfg.localId ∨ m.deadOrLeft then probeScan t index fuel (offset + 1)
      else some (m, (idx + 1) % t.length)

omit [DecidableEq A] in
/-- `next_probe_target`, endpoint/mod.rs:2851-2875, returning the member and the new index. -/
def nextProbeTarget (e : Ep I A) : Option (Member I A × Nat) :=
  if e.core.members.length = 0 then none
  else probeScan cfg e.core.members e.probeIndex e.core.members.length 0

omit [DecidableEq I] [DecidableEq A] in
/-- The datagrams of a new probe, endpoint/mod.rs:2722-2786: a ping, and for a suspected target the Suspect
claim too, in the same datagram if it fits. Returns whether the ping was sent. -/
def sendProbe (e : Ep I A) (m : Member I A) (seq : Nat) : Ep I A × Bool :=
  let pingMsg : Message I A :=
    .ping { seq, source := localNode cfg, target := { id := m.server.id, addr := m.server.addr } }
  if m.state = .suspect then
    let suspectMsg : Message I A :=
      .suspect { incarnation := m.incarnation, node := m.server.id, src := cfg.localId }
    let upper := COMPOUND_TAG_LEN + COMPOUND_MAX_COUNT_PREFIX_LEN +
      (COMPOUND_MAX_PART_PREFIX_LEN + wireLen env.CI env.CA pingMsg) +
      (COMPOUND_MAX_PART_PREFIX_LEN + wireLen env.CI env.CA suspectMsg)
    if upper ≤ cfg.gossipMtu then (e.send (.compound m.server.addr [pingMsg, suspectMsg]), true)
    else
      let r := e.pushWithinMtu cfg env m.server.addr pingMsg
      ((r.1.pushWithinMtu cfg env m.server.addr suspectMsg).1, r.2)
  else e.pushWithinMtu cfg env m.server.addr pingMsg

omit [DecidableEq A] in
/-- `start_probe`, endpoint/mod.rs:2650-2794. -/
def startProbe (e : Ep I A) (now : Nat) : Ep I A × Bool :=
  if !e.isRunning then (e, false)
  else
    match e.nextProbeTarget cfg with
    | none => (e, false)
    | some (m, index) =>
      let e := { e with probeIndex := index }
      match allocSeq e.net with
      | none => (e, false)
      | some seq =>
        let pt := cfg.probeTimeout
        let failure := now + e.core.awareness.scaleTimeout cfg.probeInterval
        let p := Probe.newDirect m.server m.incarnation m.gen now .detection pt failure
        let e := { e with net := { e.net with
          nextSeq := seq
          probes := e.net.probes.insert seq p
          acks := e.net.acks.insert seq { sent := now, deadline := p.directDeadline pt, kind := .probe } } }
        let r := e.sendProbe cfg env m seq
        ({ r.1 with net := { r.1.net with
            probes := r.1.net.probes.modify seq (fun p => { p with dispatched := r.2 }) } }, true)

/-! ### Stream intents -/

section
omit [DecidableEq I] [DecidableEq A]
/-- The table as push/pull states, endpoint/mod.rs:1094-1112, 3167-3188. -/
def tableStates (t : Table I A) : List (PushNodeState I A) :=
  t.map (fun m =>
    { id := m.server.id, addr := m.server.addr, metadata := m.server.metadata
      incarnation := m.incarnation, state := m.state, pv := m.server.pv, dv := m.server.dv })

/-- `encode_message(..).expect(..)` into the bytes of an intent; a message that cannot be encoded (a panic in
the code) gives no bytes. wire.rs:36. -/
def encodeBytes (m : Message I A) : Bytes :=
  match encodeTyped env.CI env.CA m with
  | .ok b => b
  | .error _ => []

/-- `start_push_pull_direct`, endpoint/mod.rs:3147-3211. -/
def startPushPullDirect (e : Ep I A) (peer : A) (kind : PushPullKind) (now : Nat) :
    Ep I A × Nat × Option (DialIntent A) :=
  let id := e.net.nextStreamId
  let e := { e with net := { e.net with nextStreamId := id + 1 } }
  if !e.isRunning then (e, id, none)
  else
    let deadline := now + cfg.streamTimeout
    let pp : PushPull I A :=
      { join := kind == .join, states := tableStates e.core.members, userData := e.localState }
    let intent : Intent A :=
      { peer, kind := .pushPull kind, deadline, encoded := encodeBytes env (.pushPull pp) }
    ({ e with net := insertIntent e.net id intent }, id, some { stream := id, peer, deadline })

/-- The wrapper that turns a dial intent into a `DialRequested` event, endpoint/mod.rs:3225-3230,
3316-3323, 3383-3386. -/
def requestDial (e : Ep I A) : Option (DialIntent A) → Ep I A
  | none => e
  | some d => e.pushEvent (.dialRequested d.stream d.peer d.deadline)

/-- `start_push_pull`, endpoint/mod.rs:3223-3232. -/
def startPushPull (e : Ep I A) (peer : A) (kind : PushPullKind) (now : Nat) : Ep I A × Nat :=
  let r := e.startPushPullDirect cfg env peer kind now
  (r.1.requestDial r.2.2, r.2.1)

/-- `start_reliable_ping_direct`, endpoint/mod.rs:3247-3293. -/
def startReliablePingDirect (e : Ep I A) (peerId : I) (peer : A) (seq deadline : Nat) :
    Ep I A × Nat × Option (DialIntent A) :=
  let id := e.net.nextStreamId
  let e := { e with net := { e.net with nextStreamId := id + 1 } }
  if !e.isRunning then (e, id, none)
  else
    let msg : Message I A :=
      .ping { seq, source := localNode cfg, target := { id := peerId, addr := peer } }
    let intent : Intent A := { peer, kind := .reliablePing seq, deadline, encoded := encodeBytes env msg }
    ({ e with net := insertIntent e.net id intent }, id, some { stream := id, peer, deadline })

/-- `start_reliable_ping`, endpoint/mod.rs:3308-3325. -/
def startReliablePing (e : Ep I A) (peerId : I) (peer : A) (seq deadline : Nat) : Ep I A × Nat :=
  let r := e.startReliablePingDirect cfg env peerId peer seq deadline
  (r.1.requestDial r.2.2, r.2.1)

/-- `start_user_message_direct`, endpoint/mod.rs:3337-3366. -/
def startUserMessageDirect (e : Ep I A) (peer : A) (payload : Bytes) (now : Nat) :
    Ep I A × Except EpErr (Nat × DialIntent A) :=
  if !e.isRunning then (e, .error .notRunning)
  else
    let id := e.net.nextStreamId
    let e := { e with net := { e.net with nextStreamId := id + 1 } }
    let deadline := now + cfg.streamTimeout
    let intent : Intent A :=
      { peer, kind := .userMessage, deadline, encoded := encodeBytes env (.userData payload) }
    ({ e with net := insertIntent e.net id intent }, .ok (id, { stream := id, peer, deadline }))

/-- `start_user_message`, endpoint/mod.rs:3376-3388. -/
def startUserMessage (e : Ep I A) (peer : A) (payload : Bytes) (now : Nat) : Ep I A × Except EpErr Nat :=
  match e.startUserMessageDirect cfg env peer payload now with
  | (e, .error err) => (e, .error err)
  | (e, .ok (id, d)) => (e.requestDial (some d), .ok id)

/-- `dial_succeeded`, endpoint/mod.rs:3396-3443. -/
def dialSucceeded (e : Ep I A) (id now : Nat) : Ep I A × Option (Stream I A) :=
  match e.net.intents.get? id with
  | none => ({ e with net := removeIntent e.net id }, none)
  | some i =>
    let e' := { e with net := removeIntent e.net id }
    let retired := match i.kind with
      | .reliablePing seq => { e' with net := retireFallback e'.net seq }
      | _ => e'
    if now ≥ i.deadline then (retired, none)
    else if e.core.lifecycle ≠ .running then (retired, none)
    else (e', some (Stream.fresh id i.peer cfg.localId cfg.maxStreamFrameSize i.deadline
      (some (i.kind, i.encoded))))

/-- `dial_failed`, endpoint/mod.rs:1006-1023. -/
def dialFailed (e : Ep I A) (id : Nat) : Ep I A := { e with net := dropIntent e.net id }

/-- `accept_stream`, endpoint/mod.rs:3448-3471. -/
def acceptStream (e : Ep I A) (src : A) (now : Nat) : Ep I A × Option (Stream I A) :=
  if !e.isRunning then (e, none)
  else
    let id := e.net.nextStreamId
    ({ e with net := { e.net with nextStreamId := id + 1 } },
      some (Stream.fresh id src cfg.localId cfg.maxStreamFrameSize (now + cfg.streamTimeout) none))
end

/-! ### Timers -/

/-- The candidate relays of `probe_fan_out_indirect`, endpoint/mod.rs:4247-4263: the distinct addresses
of alive members other than the local node's and the target's. -/
def relayCandidates (t : Table I A) (localAddr target : A) : List A :=
  t.foldl (fun acc m =>
    if m.state ≠ .alive then acc
    else if m.server.addr = localAddr ∨ m.server.addr = target then acc
    else if m.server.addr ∈ acc then acc
    else acc ++ [m.server.addr]) []

omit [DecidableEq I] [DecidableEq A] in
/-- The loop that asks the chosen relays, endpoint/mod.rs:4325-4335; returns those the request was
sent to. -/
def askRelays (msg : Message I A) : List A → Ep I A → List A → Ep I A × List A
  | [], e, asked => (e, asked)
  | a :: as, e, asked =>
    let r := e.pushWithinMtu cfg env a msg
    askRelays msg as r.1 (if r.2 then asked ++ [a] else asked)

omit [DecidableEq A] in
/-- The reliable ping a probe falls back on unless disabled for the target, endpoint/mod.rs:4290-4311. -/
def startFallback (e : Ep I A) (p : Probe I A) (seq : Nat) : Ep I A × Option Nat :=
  if p.target.id ∈ e.net.reliableDisabled then (e, none)
  else
    let r := e.startReliablePing cfg env p.target.id p.target.addr seq p.failureDeadline
    (r.1, some r.2)

omit [DecidableEq A] in
/-- The end of `probe_fan_out_indirect`, endpoint/mod.rs:4313-4364: ask the chosen relays; fail at once
when nothing could be sent and there is no fallback. -/
def fanOutTo (e : Ep I A) (p : Probe I A) (seq now : Nat) (stream : Option Nat) (chosen : List A) : Ep I A :=
  let msg : Message I A :=
    .indirectPing { seq, source := localNode cfg, target := { id := p.target.id, addr := p.target.addr } }
  let r := askRelays cfg env msg chosen e []
  if r.2.isEmpty && stream.isNone then r.1.probeTerminateFailure cfg env seq now
  else
    { r.1 with net := { r.1.net with probes := r.1.net.probes.modify seq (fun p =>
        { p with
          dispatched := true
          phase := .indirect r.2.length r.2 [] stream p.failureDeadline }) } }

/-- `probe_fan_out_indirect`, endpoint/mod.rs:4202-4364. -/
def fanOut (e : Ep I A) (seq now : Nat) : Ep I A :=
  match e.net.probes.get? seq with
  | none => e
  | some p =>
    let candidates := relayCandidates e.core.members cfg.advertise p.target.addr
    let σ := env.tape e.tick
    let e := e.tickUp
    let chosen := pickRandom candidates cfg.indirectChecks σ
    if p.failureDeadline ≤ now then e.probeTerminateFailure cfg env seq now
    else
      let r := e.startFallback cfg env p seq
      r.1.fanOutTo cfg env p seq now r.2 chosen

omit [DecidableEq I] [DecidableEq A] in
/-- The classification of one probe in `advance_probe_fsm`, endpoint/mod.rs:4154-4188: `some true` to
fan out, `some false` to fail. -/
def probeDue (p : Probe I A) (now : Nat) : Option Bool :=
  match p.phase with
  | .direct _ =>
    if p.failureDeadline ≤ now then some false
    else if p.directDeadline cfg.probeTimeout ≤ now then
      match p.kind with
      | .detection => some true
      | .ping => some false
    else none
  | .indirect _ _ _ _ _ => if p.failureDeadline ≤ now then some false else none

/-- `advance_probe_fsm`, endpoint/mod.rs:4149-4196. -/
def advanceProbes (e : Ep I A) (now : Nat) : Ep I A :=
  let probes := e.net.probes
  let keys := env.order e.tick ((probes.map Prod.fst))
  let e := e.tickUp
  let due (b : Bool) := keys.filter (fun s => match probes.get? s with
    | some p => probeDue cfg p now == some b
    | none => false)
  let e := (due true).foldl (fun e s => e.fanOut cfg env s now) e
  (due false).foldl (fun e s => e.probeTerminateFailure cfg env s now) e

omit [DecidableEq I] [DecidableEq A] in
/-- `fire_expired_forwards`, endpoint/mod.rs:671-704. -/
def fireExpiredForwards (e : Ep I A) (now : Nat) : Ep I A :=
  let expired := (e.net.forwards.filter (fun f => f.2.deadline ≤ now)).map Prod.fst
  let keys := env.order e.tick (expired)
  let e := e.tickUp
  keys.foldl (fun e seq =>
    match e.net.forwards.get? seq with
    | none => e
    | some f =>
      let e := { e with net := { e.net with
        forwards := e.net.forwards.erase seq, acks := e.net.acks.erase seq } }
      e.send (.packet f.replyTo (.nack f.requesterSeq))) e

omit [DecidableEq I] [DecidableEq A] in
/-- `fire_expired_stream_intents`, endpoint/mod.rs:654-668. -/
def fireExpiredIntents (e : Ep I A) (now : Nat) : Ep I A :=
  let expired := (e.net.intents.filter (fun i => now ≥ i.2.deadline)).map Prod.fst
  let keys := env.order e.tick (expired)
  let e := e.tickUp
  keys.foldl (fun e id => { e with net := dropIntent e.net id }) e

omit [DecidableEq A] in
/-- `reset_nodes`, endpoint/mod.rs:4654-4704. -/
def resetNodes (e : Ep I A) (now : Nat) : Ep I A :=
  let σ := env.tape e.tick
  let e := e.tickUp
  { e with core := e.core.resetNodes cfg σ now, probeIndex := 0 }

omit [DecidableEq A] in
/-- `fire_probe_scheduler`, endpoint/mod.rs:4368-4387. -/
def fireProbeScheduler (e : Ep I A) (now : Nat) : Ep I A :=
  match e.nextProbe with
  | none => e
  | some deadline =>
    if now < deadline then e
    else
      let e := { e with probesSinceReset := e.probesSinceReset + 1 }
      let n := e.core.members.length
      let e := if n > 0 ∧ e.probesSinceReset ≥ n then
          { e.resetNodes cfg env now with probesSinceReset := 0 }
        else e
      let e := (e.startProbe cfg env now).1
      { e with nextProbe := some (now + cfg.probeInterval) }

omit [DecidableEq A] in
/-- The gossip targets, endpoint/mod.rs:4421-4440. -/
def gossipCandidates (t : Table I A) (now : Nat) : List A :=
  (t.filter (fun m => decide (m.id ≠ cfg.localId) &&
    (match m.state with
      | .alive | .suspect => true
      | .dead => decide (now - m.stateChange ≤ cfg.gossipToTheDead)
      | _ => false))).map (fun m => m.server.addr)

omit [DecidableEq I] [DecidableEq A] in
/-- `drain_user_broadcasts`, endpoint/mod.rs:971-979. -/
def drainUser (e : Ep I A) (numNodes limit : Nat) : Ep I A × List Bytes :=
  let (u, sent, _, _) := e.user.takeMeasured bytesOps numNodes USER_PART_OVERHEAD limit
  ({ e with user := u }, sent.flatten.map (fun x => x.broadcast))

/-- The bytes of a datagram left for parts after the compound header, endpoint/mod.rs:4458-4459. -/
def compoundBudget {I A : Type} (cfg : Cfg I A) : Nat :=
  cfg.gossipMtu - (COMPOUND_TAG_LEN + COMPOUND_MAX_COUNT_PREFIX_LEN)

omit [DecidableEq I] [DecidableEq A] in
/-- Does the next claim to send fit a datagram only on its own, endpoint/mod.rs:4488-4493. -/
def nearMtu (q : BQueue I (I × Message I A)) : Bool :=
  match q.peekFirstSendable cfg.gossipMtu with
  | some len => decide (len + COMPOUND_MAX_PART_PREFIX_LEN > compoundBudget cfg)
  | none => false

omit [DecidableEq A] in
/-- What a gossip round sends, endpoint/mod.rs:4488-4537. -/
def drainGossip (e : Ep I A) : Ep I A × List (Message I A) :=
  let ops := claimOps (wireLen env.CI env.CA)
  let num := e.core.members.length
  if nearMtu cfg e.core.bcast then
    let d := e.core.bcast.takeOne ops num cfg.gossipMtu
    ({ e with core := { e.core with bcast := d.s } }, d.sent.map (fun x => x.broadcast.2))
  else
    let d := e.core.bcast.takeMeasured ops num COMPOUND_MAX_PART_PREFIX_LEN (compoundBudget cfg)
    let e := { e with core := { e.core with bcast := d.s } }
    let claims := d.sent.map (fun x => x.broadcast.2)
    if claims.isEmpty then
      let r := e.drainUser num (compoundBudget cfg)
      (r.1, r.2.map Message.userData)
    else
      let r := e.drainUser num (compoundBudget cfg - d.used)
      (r.1, claims ++ r.2.map Message.userData)

section
omit [DecidableEq I] [DecidableEq A]
/-- The datagram carrying the given messages, endpoint/mod.rs:4543-4557. -/
def datagram (to : A) : List (Message I A) → Option (Transmit I A)
  | [] => none
  | [m] => some (.packet to m)
  | ms => some (.compound to ms)

/-- The sends of a gossip round, endpoint/mod.rs:4542-4558. -/
def sendAll (e : Ep I A) (targets : List A) (msgs : List (Message I A)) : Ep I A :=
  targets.foldl (fun e to => match datagram to msgs with
    | some t => e.send t
    | none => e) e
end

omit [DecidableEq A] in
/-- `fire_gossip_scheduler`, endpoint/mod.rs:4401-4562. -/
def fireGossipScheduler (e : Ep I A) (now : Nat) : Ep I A :=
  match e.nextGossip with
  | none => e
  | some deadline =>
    if now < deadline then e
    else
      let candidates := gossipCandidates cfg e.core.members now
      let σ := env.tape e.tick
      let e := e.tickUp
      let targets := pickRandom candidates cfg.gossipNodes σ
      if targets.isEmpty then { e with nextGossip := some (now + cfg.gossipInterval) }
      else
        let r := e.drainGossip cfg env
        let e := r.1.sendAll targets r.2
        { e with nextGossip := some (now + cfg.gossipInterval) }

omit [DecidableEq A] in
/-- The live remote members' addresses, endpoint/mod.rs:3640-3648, 4582-4592. -/
def livePeers (t : Table I A) : List A :=
  (t.filter (fun m => decide (m.id ≠ cfg.localId) &&
    decide (m.state = .alive ∨ m.state = .suspect))).map (fun m => m.server.addr)

omit [DecidableEq A] in
/-- `fire_pushpull_scheduler`, endpoint/mod.rs:4570-4609. -/
def firePushPullScheduler (e : Ep I A) (now : Nat) : Ep I A :=
  match e.nextPushPull with
  | none => e
  | some deadline =>
    if now < deadline then e
    else
      let candidates := livePeers cfg e.core.members
      let σ := env.tape e.tick
      let e := e.tickUp
      let e := match pickRandom candidates 1 σ with
        | [] => e
        | peer :: _ => (e.startPushPull cfg env peer .refresh now).1
      { e with nextPushPull := some (now + pushPullScale cfg.pushPullInterval candidates.length) }

section
omit [DecidableEq I] [DecidableEq A]
/-- `build_pushpull_response_bytes`, endpoint/mod.rs:1093-1135, before encoding and compression. -/
def buildResponse (e : Ep I A) : PushPull I A :=
  { join := false, states := tableStates e.core.members, userData := e.localState }

/-- `refresh_pushpull_response_cache`, endpoint/mod.rs:1164-1171. -/
def refreshCache (e : Ep I A) : Ep I A :=
  if e.core.snapVer = e.cachedVer ∧ e.cachedDirty = false then e
  else { e with cached := e.buildResponse, cachedVer := e.core.snapVer, cachedDirty := false }
end

/-- `handle_timeout`, endpoint/mod.rs:4117-4139. -/
def handleTimeout (e : Ep I A) (now : Nat) : Ep I A :=
  if e.core.lifecycle ≠ .running then e
  else
    let e := { e with core := e.core.fireExpiredSuspicions cfg env now }
    let e := e.advanceProbes cfg env now
    let e := e.fireExpiredForwards env now
    let e := e.fireExpiredIntents env now
    let e := e.fireProbeScheduler cfg env now
    let e := e.fireGossipScheduler cfg env now
    let e := e.firePushPullScheduler cfg env now
    e.refreshCache

section
omit [DecidableEq I] [DecidableEq A]
/-- The smaller of two optional times. Standard library: the `min` taken by `poll_timeout`, endpoint/mod.rs. -/
def minOpt : Option Nat → Option Nat → Option Nat
  | none, b => b
  | a, none => a
  | some a, some b => some (min a b)

/-- `poll_timeout`, endpoint/mod.rs:763-821. -/
def pollTimeout (e : Ep I A) : Option Nat :=
  if e.core.lifecycle ≠ .running then none
  else
    [e.core.suspIdx.earliest,
      (e.net.probes.map (fun p => some p.2.deadline)).foldl minOpt none,
      (e.net.forwards.map (fun f => some f.2.deadline)).foldl minOpt none,
      e.net.intentIdx.earliest, e.nextProbe, e.nextGossip, e.nextPushPull].foldl minOpt none

/-- `has_pending_operation`, endpoint/mod.rs:856-867. -/
def hasPendingOperation (e : Ep I A) : Bool :=
  e.isRunning && (!e.net.probes.isEmpty || !e.net.forwards.isEmpty || !e.net.intents.isEmpty ||
    !e.core.suspIdx.isEmpty)

/-- `start_scheduling`, endpoint/mod.rs:4850-4869. -/
def startScheduling (e : Ep I A) (now : Nat) : Ep I A :=
  if e.core.lifecycle ≠ .running then e
  else
    let σ := env.tape e.tick
    let e := e.tickUp
    { e with
      nextProbe := if cfg.probeInterval > 0 then some (now + σ 0 % cfg.probeInterval) else e.nextProbe
      nextGossip := if cfg.gossipInterval > 0 ∧ cfg.gossipNodes > 0 then
          some (now + σ 1 % cfg.gossipInterval) else e.nextGossip
      nextPushPull := if cfg.pushPullInterval > 0 then
          some (now + σ 2 % cfg.pushPullInterval) else e.nextPushPull }
end

/-! ### Packets and stream events -/

/-- `process_alive` with the delegate's verdict, endpoint/mod.rs:3828-3860. -/
def processAlive (e : Ep I A) (a : Alive I A) (now : Nat) : Ep I A :=
  { e with
    core := e.core.processAlive cfg env a (env.aliveOk e.tick (Core.nodeOf a .alive)) (env.tape e.tick 0) now
    tick := e.tick + 1 }

/-- One entry of `merge_state`, endpoint/mod.rs:4071-4105. -/
def mergeOne (e : Ep I A) (now : Nat) (r : PushNodeState I A) : Ep I A :=
  match r.state with
  | .alive =>
    e.processAlive cfg env
      { incarnation := r.incarnation, metadata := r.metadata, node := { id := r.id, addr := r.addr }
        pv := r.pv, dv := r.dv } now
  | .left =>
    let d : BadState I := { incarnation := r.incarnation, node := r.id, src := cfg.localId }
    { e with core := e.core.processDead cfg env d now }
  | .dead | .suspect =>
    let s : BadState I := { incarnation := r.incarnation, node := r.id, src := cfg.localId }
    { e with core := e.core.processSuspect cfg env s now }
  | .unknown _ => e

/-- `merge_state`, endpoint/mod.rs:4070-4107. -/
def mergeState (e : Ep I A) (remote : List (PushNodeState I A)) (now : Nat) : Ep I A :=
  remote.foldl (fun e r => e.mergeOne cfg env now r) e

/-- `handle_packet`, endpoint/mod.rs:4621-4642. -/
def handlePacket (e : Ep I A) (src : A) (msg : Message I A) (now : Nat) : Ep I A :=
  if e.core.lifecycle ≠ .running then e
  else
    match msg with
    | .ping p => e.handlePing cfg src p
    | .indirectPing p => e.handleIndirectPing cfg env src p now
    | .ack seq payload => e.handleAck cfg env src seq payload now
    | .nack seq => e.handleNack src seq now
    | .suspect s => { e with core := e.core.processSuspect cfg env s now }
    | .alive a => e.processAlive cfg env a now
    | .dead d => { e with core := e.core.processDead cfg env d now }
    | .userData data => e.emit (.userPacket src data false)
    | .pushPull _ | .errorResponse _ => e

/-- `merge_peers_view`, endpoint/mod.rs:1886-1900. -/
def mergeView {I A : Type} (states : List (PushNodeState I A)) : List (NodeState I A) :=
  states.map (fun p =>
    { id := p.id, addr := p.addr, metadata := p.metadata, state := p.state, pv := p.pv, dv := p.dv })

/-- The merge of an admitted push/pull with its application state, endpoint/mod.rs:4753-4763,
4786-4794. -/
def mergeRemote (e : Ep I A) (peer : A) (states : List (PushNodeState I A)) (userData : Bytes)
    (kind : PushPullKind) (stream now : Nat) : Ep I A :=
  let e := e.mergeState cfg env states now
  if userData.isEmpty then e else e.emit (.remoteState peer userData (kind == .join) stream)

/-- `handle_stream_event`, endpoint/mod.rs:4724-4837, with `merge_admitted`, endpoint/mod.rs:1912-1917. -/
def handleStreamEvent (e : Ep I A) (ev : EndpointEvent I A) (now : Nat) :
    Ep I A × Option (StreamCommand I A) :=
  match ev with
  | .payload (.pushPullReply peer states userData kind stream) =>
    if e.core.lifecycle ≠ .running then (e, none)
    else
      if !env.mergeOk e.tick (mergeView states) then (e.tickUp, some .close)
      else (e.tickUp.mergeRemote cfg env peer states userData kind stream now, none)
  | .payload (.pushPullRequest peer states userData kind stream) =>
    if e.core.lifecycle ≠ .running then (e, some .close)
    else
      if !env.mergeOk e.tick (mergeView states) then (e.tickUp, some .close)
      else
        let e := e.tickUp.mergeRemote cfg env peer states userData kind stream now
        (e, some (.sendResponse e.cached))
  | .payload (.reliablePingAcked seq at_) =>
    if e.core.lifecycle ≠ .running then (e, none)
    else (e.completeProbeSuccess cfg env seq false [] at_, none)
  | .payload (.userData peer data) =>
    if e.core.lifecycle ≠ .running then (e, none)
    else (e.emit (.userPacket peer data true), none)
  | .reliablePingFailed seq =>
    if e.core.lifecycle ≠ .running then (e, none)
    else ({ e with net := retireFallback e.net seq }, none)
  | .streamClosed | .streamErrored => (e, none)

/-! ### Application calls -/

section
omit [DecidableEq I] [DecidableEq A]
/-- `set_ack_payload`, endpoint/mod.rs:2383-2405. -/
def setAckPayload (e : Ep I A) (payload : Bytes) : Ep I A × Except EpErr Unit :=
  if !e.isRunning then (e, .error .notRunning)
  else if wireLen env.CI env.CA (.ack (2 ^ 32 - 1) payload) > cfg.gossipMtu then
    (e, .error .ackPayloadExceedsMtu)
  else ({ e with net := { e.net with ackPayload := payload } }, .ok ())

/-- `local_state_snapshot_overage`, endpoint/mod.rs:122-146; `true` when the snapshot fits. -/
def localStateFits (snapshot : Bytes) : Bool :=
  snapshot.isEmpty ||
    decide (wireLen env.CI env.CA (.pushPull { join := true, states := [], userData := snapshot }) ≤
      cfg.maxStreamFrameSize - LOCAL_STATE_FRAME_BUDGET)

/-- `set_local_state_snapshot`, endpoint/mod.rs:2430-2442. -/
def setLocalState (e : Ep I A) (bytes : Bytes) : Ep I A × Except EpErr Unit :=
  if !e.isRunning then (e, .error .notRunning)
  else if !localStateFits cfg env bytes then (e, .error .localStateExceedsFrame)
  else ({ e with localState := bytes, cachedDirty := true }, .ok ())

/-- `queue_user_broadcast_ranked` (`queue_user_broadcast` is rank 0) with `check_user_broadcast`,
endpoint/mod.rs:2447-2532. A queue without tiers (excluded by `NonZeroU8`) is left unchanged. -/
def queueUser (e : Ep I A) (rank : Nat) (data : Bytes) : Ep I A × Except EpErr Unit :=
  if !e.isRunning then (e, .error .notRunning)
  else if data.length > compoundBudget cfg - USER_PART_OVERHEAD then (e, .error .userBroadcastExceedsMtu)
  else
    match e.user.queueRanked bytesOps rank data with
    | none => (e, .ok ())
    | some (u, _) => ({ e with user := u }, .ok ())

/-- `send_user_packet`, endpoint/mod.rs:2538-2557. -/
def sendUserPacket (e : Ep I A) (to : A) (data : Bytes) : Ep I A × Except EpErr Unit :=
  if !e.isRunning then (e, .error .notRunning)
  else if wireLen env.CI env.CA (.userData data) > cfg.gossipMtu then (e, .error .userPacketExceedsMtu)
  else (e.send (.packet to (.userData data)), .ok ())

/-- `send_user_packets`, endpoint/mod.rs:2563-2597. -/
def sendUserPackets (e : Ep I A) (to : A) (payloads : List Bytes) : Ep I A × Except EpErr Unit :=
  if !e.isRunning then (e, .error .notRunning)
  else
    match payloads with
    | [] => (e, .ok ())
    | [one] => e.sendUserPacket cfg env to one
    | many =>
      let assembled := COMPOUND_TAG_LEN + COMPOUND_MAX_COUNT_PREFIX_LEN +
        (many.map (fun p => COMPOUND_MAX_PART_PREFIX_LEN + wireLen env.CI env.CA (.userData p))).sum
      if assembled > cfg.gossipMtu then (e, .error .userPacketExceedsMtu)
      else (e.send (.compound to (many.map Message.userData)), .ok ())
end

omit [DecidableEq A] in
/-- `update_meta`, endpoint/mod.rs:2600-2644. -/
def updateMeta (e : Ep I A) (metadata : Bytes) : Ep I A × Except EpErr Unit :=
  if !e.isRunning then (e, .error .notRunning)
  else if metadata.length > cfg.metaMaxSize then (e, .error .metaExceedsCap)
  else ({ e with core := e.core.updateMeta cfg env metadata }, .ok ())

omit [DecidableEq I] [DecidableEq A] in
/-- The reservation for the farewell in `leave_with`, endpoint/mod.rs:3670-3720: the budget left for
queued user broadcasts, and the farewell if it fits. -/
def farewellBudget (dead : BadState I) (farewell : Option Bytes) : Nat × Option Bytes :=
  let budget := compoundBudget cfg -
    (wireLen env.CI env.CA (.dead dead) + COMPOUND_MAX_PART_PREFIX_LEN)
  match farewell with
  | none => (budget, none)
  | some fw =>
    let charge := wireLen env.CI env.CA (.userData fw) + COMPOUND_MAX_PART_PREFIX_LEN
    if charge ≤ budget then (budget - charge, some fw) else (budget, none)

omit [DecidableEq I] [DecidableEq A] in
/-- The farewell payloads of `leave_with`, endpoint/mod.rs:3670-3751. -/
def farewellPayloads (e : Ep I A) (dead : BadState I) (farewell : Option Bytes) : Ep I A × List Bytes :=
  let b := farewellBudget cfg env dead farewell
  if b.1 = 0 ∧ b.2 = none then (e, [])
  else
    let r := e.drainUser e.core.members.length b.1
    (r.1, b.2.toList ++ r.2)

omit [DecidableEq A] in
/-- The Dead claim about the local node that a leave announces, endpoint/mod.rs:3622-3634. -/
def farewellClaim (c : Core I A) : BadState I :=
  { incarnation := match c.members.get cfg.localId with
      | some m => Nat.max m.incarnation c.incarnation
      | none => c.incarnation
    node := cfg.localId
    src := cfg.localId }

omit [DecidableEq I] [DecidableEq A] in
/-- The farewell datagrams, endpoint/mod.rs:3752-3780. -/
def sendFarewells (e : Ep I A) (peers : List A) (payloads : List Bytes) (dead : BadState I) : Ep I A :=
  peers.foldl (fun e to =>
    if payloads.isEmpty then e.send (.packet to (.dead dead))
    else e.send (.compound to (payloads.map Message.userData ++ [.dead dead]))) e

omit [DecidableEq A] in
/-- `leave_with` (`leave` passes no farewell), endpoint/mod.rs:3544-3801. -/
def leaveWith (e : Ep I A) (now : Nat) (farewell : Option Bytes) : Ep I A :=
  if e.core.lifecycle ≠ .running then e
  else
    let dead := farewellClaim cfg e.core
    let e := { e with
      nextProbe := none, nextGossip := none, nextPushPull := none
      net := { e.net with intents := [], intentIdx := e.net.intentIdx.clear, transmits := [] }
      core := e.core.beginLeave cfg env now }
    let peers := livePeers cfg e.core.members
    if peers.length = 0 then
      let e := { e with user := e.user.reset.1 }
      { e.emit .leftCluster with leaveFlush := none }
    else
      let r := e.farewellPayloads cfg env dead farewell
      let e := { r.1 with user := r.1.user.reset.1 }
      { e.sendFarewells peers r.2 dead with leaveFlush := some peers.length }

section
omit [DecidableEq I] [DecidableEq A]
/-- `poll_event`, endpoint/mod.rs:707-709. -/
def pollEvent (e : Ep I A) : Ep I A × Option (Event I A) :=
  match e.core.events with
  | [] => (e, none)
  | ev :: rest => ({ e with core := { e.core with events := rest } }, some ev)

/-- `poll_transmit`, endpoint/mod.rs:726-753. -/
def pollTransmit (e : Ep I A) : Ep I A × Option (Transmit I A) :=
  match e.net.transmits with
  | [] => (e, none)
  | t :: rest =>
    let e := { e with net := { e.net with transmits := rest } }
    let e := match e.leaveFlush with
      | none => e
      | some rem =>
        if rem ≤ 1 then { e.emit .leftCluster with leaveFlush := none }
        else { e with leaveFlush := some (rem - 1) }
    (e, some t)

/-- `requeue_event`, endpoint/mod.rs:716-723, for a dial request. -/
def requeueDial (e : Ep I A) (id : Nat) (peer : A) (deadline : Nat) : Ep I A :=
  if !e.isRunning then e else e.pushEvent (.dialRequested id peer deadline)

/-- `sieve_dial_events`, streams/mod.rs:1066-1085: the pending dial requests are taken out of the event
queue, everything else keeps its order. -/
def sieveDials (e : Ep I A) : Ep I A × List (Event I A) :=
  ({ e with core := { e.core with events := e.core.events.filter (fun ev => !ev.isDial) } },
    e.core.events.filter (fun ev => ev.isDial))

/-- `degrade_health`, endpoint/mod.rs:381-384. -/
def degradeHealth (e : Ep I A) (severity : Nat) : Ep I A :=
  { e with core := { e.core with awareness := e.core.awareness.recordFailure severity }.bump }

/-- `improve_health`, endpoint/mod.rs:387-390. -/
def improveHealth (e : Ep I A) : Ep I A :=
  { e with core := { e.core with awareness := e.core.awareness.recordSuccess }.bump }

/-- `set_response_compression`, endpoint/mod.rs:1148-1154 (the compression itself is not modelled
here). -/
def setResponseCompression (e : Ep I A) : Ep I A := { e with cachedDirty := true }.refreshCache
end

omit [DecidableEq A] in
/-- `drain_broadcasts`, endpoint/mod.rs:2361-2366. -/
def drainBroadcasts (e : Ep I A) : Ep I A × List (Message I A) :=
  let d := e.core.bcast.takeMeasured (claimOps (wireLen env.CI env.CA)) e.core.members.length 0 U64_MAX
  ({ e with core := { e.core with bcast := d.s } }, d.sent.map (fun x => x.broadcast.2))

/-- The largest of the three mandatory messages, endpoint/mod.rs:1379-1400; `none` when one cannot be
encoded. -/
def mandatoryLen {I A : Type} (cfg : Cfg I A) (env : Env I A) : Option Nat :=
  let len (m : Message I A) : Option Nat := match encodeOutgoing env.CI env.CA none m with
    | .ok b => some b.length
    | .error _ => none
  let top := 2 ^ 32 - 1
  match len (.ping { seq := top, source := localNode cfg, target := localNode cfg }),
    len (.alive { incarnation := top, metadata := cfg.initialMeta, node := localNode cfg, pv := .v1, dv := .v1 }),
    len (.ack top []) with
  | some a, some b, some c => some (Nat.max a (Nat.max b c))
  | _, _, _ => none

omit [DecidableEq A] in
/-- `try_new_at`, endpoint/mod.rs:1327-1541. -/
def tryNew (now : Nat) : Except InitErr (Ep I A) :=
  if cfg.initialMeta.length > cfg.metaMaxSize then .error .metaTooLarge
  else if cfg.awarenessMax = 0 then .error .awarenessMultiplierZero
  else if cfg.gossipMtu < GOSSIP_MTU_MIN then .error .gossipMtuTooSmall
  else if cfg.gossipMtu > MAX_GOSSIP_MTU then .error .gossipMtuTooLarge
  else if cfg.maxStreamFrameSize = 0 ∨ cfg.maxStreamFrameSize > 2 ^ 32 - 1 then
    .error .invalidMaxStreamFrameSize
  else
    match mandatoryLen cfg env with
    | none => .error .unencodableLocalIdentity
    | some required =>
      if cfg.gossipMtu < required then .error .gossipMtuTooSmall
      else
        let pp : PushPull I A :=
          { join := true
            states := [{ id := cfg.localId, addr := cfg.advertise
                         metadata := List.replicate (Nat.min cfg.metaMaxSize META_MAX_SIZE) 0
                         incarnation := 2 ^ 32 - 1, state := .alive, pv := .v1, dv := .v1 }]
            userData := [] }
        match encodeOutgoing env.CI env.CA none (.pushPull pp) with
        | .error _ => .error .unencodableLocalIdentity
        | .ok frame =>
          if frame.length > cfg.maxStreamFrameSize then .error .maxStreamFrameSizeTooSmall
          else if !localStateFits cfg env cfg.initialLocalState then .error .localStateExceedsFrame
          else
            let e : Ep I A :=
              { core := Core.init cfg env now
                user := .new cfg.userTiers cfg.retransmitMult
                localState := cfg.initialLocalState
                cached := { join := false, states := [], userData := [] } }
            .ok e.refreshCache

/-! ### Histories -/

/-- Every call of the endpoint's interface that changes it. Model only, no counterpart in the code: it gathers
the public methods of `Endpoint`, endpoint/mod.rs. -/
inductive Op (I A : Type) where
  | packet (src : A) (msg : Message I A) (now : Nat)
  | timeout (now : Nat)
  | streamEvent (ev : EndpointEvent I A) (now : Nat)
  | mergeState (remote : List (PushNodeState I A)) (now : Nat)
  | ping (node : TNode I A) (now : Nat)
  | startProbe (now : Nat)
  | startPushPull (peer : A) (kind : PushPullKind) (now : Nat)
  | startPushPullDirect (peer : A) (kind : PushPullKind) (now : Nat)
  | startReliablePing (peerId : I) (peer : A) (seq deadline : Nat)
  | startReliablePingDirect (peerId : I) (peer : A) (seq deadline : Nat)
  | startUserMessage (peer : A) (payload : Bytes) (now : Nat)
  | startUserMessageDirect (peer : A) (payload : Bytes) (now : Nat)
  | dialSucceeded (id now : Nat)
  | dialFailed (id : Nat)
  | acceptStream (src : A) (now : Nat)
  | startScheduling (now : Nat)
  | resetNodes (now : Nat)
  | leave (now : Nat) (farewell : Option Bytes)
  | updateMeta (metadata : Bytes)
  | setAckPayload (payload : Bytes)
  | setLocalState (bytes : Bytes)
  | setResponseCompression
  | queueUser (rank : Nat) (data : Bytes)
  | sendUserPacket (to : A) (data : Bytes)
  | sendUserPackets (to : A) (payloads : List Bytes)
  | degradeHealth (severity : Nat)
  | improveHealth
  | disableReliablePing (id : I)
  | enableReliablePing (id : I)
  | drainBroadcasts
  | external (r : Option (Completion A))
  | pollEvent
  | pollTransmit
  | sieveDials
  | requeueDial (id : Nat) (peer : A) (deadline : Nat)

/-- What a call returns. Model only, no counterpart in the code: it gathers the results of the public methods of
`Endpoint`. -/
inductive Out (I A : Type) where
  | unit
  | bool (b : Bool)
  | result (r : Except EpErr Unit)
  | pingId (r : Except EpErr Nat)
  | streamId (id : Nat)
  | streamIdResult (r : Except EpErr Nat)
  | dial (id : Nat) (d : Option (DialIntent A))
  | dialResult (r : Except EpErr (Nat × DialIntent A))
  | stream (s : Option (Stream I A))
  | command (c : Option (StreamCommand I A))
  | event (e : Option (Event I A))
  | transmit (t : Option (Transmit I A))
  | dials (l : List (Event I A))
  | messages (l : List (Message I A))

/-- One call: the new state and what the call returns. Model only, no counterpart in the code: it dispatches to
the modelled methods. -/
def step (e : Ep I A) : Op I A → Ep I A × Out I A
  | .packet src msg now => (e.handlePacket cfg env src msg now, .unit)
  | .timeout now => (e.handleTimeout cfg env now, .unit)
  | .streamEvent ev now =>
    ((e.handleStreamEvent cfg env ev now).1, .command (e.handleStreamEvent cfg env ev now).2)
  | .mergeState remote now => (e.mergeState cfg env remote now, .unit)
  | .ping node now => ((e.ping cfg env node now).1, .pingId (e.ping cfg env node now).2)
  | .startProbe now => ((e.startProbe cfg env now).1, .bool (e.startProbe cfg env now).2)
  | .startPushPull peer kind now =>
    ((e.startPushPull cfg env peer kind now).1, .streamId (e.startPushPull cfg env peer kind now).2)
  | .startPushPullDirect peer kind now =>
    ((e.startPushPullDirect cfg env peer kind now).1,
      .dial (e.startPushPullDirect cfg env peer kind now).2.1
        (e.startPushPullDirect cfg env peer kind now).2.2)
  | .startReliablePing peerId peer seq d =>
    ((e.startReliablePing cfg env peerId peer seq d).1,
      .streamId (e.startReliablePing cfg env peerId peer seq d).2)
  | .startReliablePingDirect peerId peer seq d =>
    ((e.startReliablePingDirect cfg env peerId peer seq d).1,
      .dial (e.startReliablePingDirect cfg env peerId peer seq d).2.1
        (e.startReliablePingDirect cfg env peerId peer seq d).2.2)
  | .startUserMessage peer payload now =>
    ((e.startUserMessage cfg env peer payload now).1,
      .streamIdResult (e.startUserMessage cfg env peer payload now).2)
  | .startUserMessageDirect peer payload now =>
    ((e.startUserMessageDirect cfg env peer payload now).1,
      .dialResult (e.startUserMessageDirect cfg env peer payload now).2)
  | .dialSucceeded id now =>
    ((e.dialSucceeded cfg id now).1, .stream (e.dialSucceeded cfg id now).2)
  | .dialFailed id => (e.dialFailed id, .unit)
  | .acceptStream src now =>
    ((e.acceptStream cfg src now).1, .stream (e.acceptStream cfg src now).2)
  | .startScheduling now => (e.startScheduling cfg env now, .unit)
  | .resetNodes now => (e.resetNodes cfg env now, .unit)
  | .leave now farewell => (e.leaveWith cfg env now farewell, .result (.ok ()))
  | .updateMeta m => ((e.updateMeta cfg env m).1, .result (e.updateMeta cfg env m).2)
  | .setAckPayload b => ((e.setAckPayload cfg env b).1, .result (e.setAckPayload cfg env b).2)
  | .setLocalState b => ((e.setLocalState cfg env b).1, .result (e.setLocalState cfg env b).2)
  | .setResponseCompression => (e.setResponseCompression, .unit)
  | .queueUser rank b => ((e.queueUser cfg rank b).1, .result (e.queueUser cfg rank b).2)
  | .sendUserPacket to b =>
    ((e.sendUserPacket cfg env to b).1, .result (e.sendUserPacket cfg env to b).2)
  | .sendUserPackets to bs =>
    ((e.sendUserPackets cfg env to bs).1, .result (e.sendUserPackets cfg env to bs).2)
  | .degradeHealth s => (e.degradeHealth s, .unit)
  | .improveHealth => (e.improveHealth, .unit)
  | .disableReliablePing id =>
    ({ e with net := { e.net with reliableDisabled := id :: e.net.reliableDisabled } }, .unit)
  | .enableReliablePing id =>
    ({ e with net := { e.net with reliableDisabled := e.net.reliableDisabled.filter (· ≠ id) } }, .unit)
  | .drainBroadcasts => ((e.drainBroadcasts env).1, .messages (e.drainBroadcasts env).2)
  | .external r => (e.emit (.external r), .unit)
  | .pollEvent => (e.pollEvent.1, .event e.pollEvent.2)
  | .pollTransmit => (e.pollTransmit.1, .transmit e.pollTransmit.2)
  | .sieveDials => (e.sieveDials.1, .dials e.sieveDials.2)
  | .requeueDial id peer d => (e.requeueDial id peer d, .unit)

/-- The state after a history. Model only, no counterpart in the code: a history of calls. -/
def run (e : Ep I A) (ops : List (Op I A)) : Ep I A :=
  ops.foldl (fun e op => (e.step cfg env op).1) e

/-- What the calls of a history returned, in order. Model only, no counterpart in the code: a history of calls.
-/
def outs (e : Ep I A) : List (Op I A) → List (Out I A)
  | [] => []
  | op :: ops => (e.step cfg env op).2 :: outs (e.step cfg env op).1 ops

end Ep
end Verif
