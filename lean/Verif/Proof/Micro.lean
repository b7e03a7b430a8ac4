import Mathlib.Logic.Relation
import Mathlib.Data.List.Nodup
import Verif.Proof.Reach
import Verif.Proof.Map
/-
Every call of the endpoint is a sequence of elementary steps on its pending tables, and which steps a call
can cause. The counterpart of Proof/EpAct.lean for probes, acks, relayed pings and stream intents.
-/
namespace Verif.Ep
open Verif Core Spec
variable {I A : Type} [DecidableEq I] [DecidableEq A]
variable {cfg : Cfg I A} {env : Env I A}

/-- Events that neither report a ping nor request a dial nor report the end of a leave. -/
def quietEv : Event I A → Bool
  | .pingCompleted _ _ _ _ => false
  | .pingFailed _ _ => false
  | .dialRequested _ _ _ => false
  | .leftCluster => false
  | _ => true

/-- The actions on the core a call may cause apart from the outcome of a probe, gossip and leaving. -/
inductive CoreOf (cfg : Cfg I A) (env : Env I A) : Op I A → Act I A → Prop
  | alive (src : A) (a : Alive I A) (now tk off : Nat) :
    CoreOf cfg env (.packet src (.alive a) now) (.alive a (env.aliveOk tk (nodeOf a .alive)) off now)
  | suspect (src : A) (s : BadState I) (now : Nat) :
    CoreOf cfg env (.packet src (.suspect s) now) (.suspect s now)
  | dead (src : A) (d : BadState I) (now : Nat) :
    CoreOf cfg env (.packet src (.dead d) now) (.dead d now)
  | remoteAlive {op : Op I A} {now : Nat} (r : PushNodeState I A) (tk off : Nat) (hn : op.time? = some now)
      (hr : r ∈ op.remote) (hs : r.state = .alive) :
    CoreOf cfg env op (.alive (claimOf r) (env.aliveOk tk (nodeOf (claimOf r) .alive)) off now)
  | remoteBad {op : Op I A} {now : Nat} (r : PushNodeState I A) (hn : op.time? = some now)
      (hr : r ∈ op.remote) (hs : r.state = .dead ∨ r.state = .suspect) :
    CoreOf cfg env op (.suspect { incarnation := r.incarnation, node := r.id, src := cfg.localId } now)
  | remoteLeft {op : Op I A} {now : Nat} (r : PushNodeState I A) (hn : op.time? = some now)
      (hr : r ∈ op.remote) (hs : r.state = .left) :
    CoreOf cfg env op (.dead { incarnation := r.incarnation, node := r.id, src := cfg.localId } now)
  | expire (now : Nat) : CoreOf cfg env (.timeout now) (.expire now)
  | reset (pick : Nat → Nat) (now : Nat) : CoreOf cfg env (.timeout now) (.reset pick now)
  | resetNodes (pick : Nat → Nat) (now : Nat) : CoreOf cfg env (.resetNodes now) (.reset pick now)
  | updateMeta (md : Bytes) : CoreOf cfg env (.updateMeta md) (.updateMeta md)
  | push {op : Op I A} (ev : Event I A) (h : ev.isMembership = false) (hq : quietEv ev = true) :
    CoreOf cfg env op (.push ev)
  | pop : CoreOf cfg env .pollEvent .pop
  | dropDials : CoreOf cfg env .sieveDials .dropDials
  | fail (sev : Nat) : CoreOf cfg env (.degradeHealth sev) (.fail sev)
  | success : CoreOf cfg env .improveHealth .success
  | drain (o l : Nat) : CoreOf cfg env .drainBroadcasts (.drain o l)

theorem CoreOf.act {op : Op I A} {x : Act I A} (h : CoreOf cfg env op x) : ActOf cfg env op x := by
  cases h with
  | alive src a now tk off => exact .alive ..
  | suspect src s now => exact .suspect ..
  | dead src d now => exact .dead ..
  | remoteAlive r tk off hn hr hs => exact .remoteAlive r tk off hn hr hs
  | remoteBad r hn hr hs => exact .remoteBad r hn hr hs
  | remoteLeft r hn hr hs => exact .remoteLeft r hn hr hs
  | expire now => exact .expire now
  | reset pick now => exact .reset ..
  | resetNodes pick now => exact .resetNodes ..
  | updateMeta md => exact .updateMeta _
  | push ev h hq => exact .push ev h
  | pop => exact .pop
  | dropDials => exact .dropDials
  | fail sev => exact .fail _
  | success => exact .success
  | drain o l => exact .drain _ _

/-- The pending tables are the same, and nothing was sent. -/
structure SameNet (n n' : Net I A) : Prop where
  probes : n'.probes = n.probes
  acks : n'.acks = n.acks
  forwards : n'.forwards = n.forwards
  nextSeq : n'.nextSeq = n.nextSeq
  intents : n'.intents = n.intents
  intentIdx : n'.intentIdx = n.intentIdx
  nextStreamId : n'.nextStreamId = n.nextStreamId
  transmits : n'.transmits = n.transmits

theorem SameNet.refl (n : Net I A) : SameNet n n := ⟨rfl, rfl, rfl, rfl, rfl, rfl, rfl, rfl⟩

/-- The call returns the dial request instead of queueing it. -/
def Op.isDirect : Op I A → Bool
  | .startPushPullDirect _ _ _ => true
  | .startReliablePingDirect _ _ _ _ => true
  | .startUserMessageDirect _ _ _ => true
  | _ => false

/-- The relays asked for a probe. -/
def asked (p : Probe I A) : List A :=
  match p.phase with
  | .indirect _ peers _ _ _ => peers
  | .direct _ => []

/-- A suspicion of a member recorded as suspect, under the local name. -/
def KnownSuspect (cfg : Cfg I A) (e : Ep I A) (s : BadState I) : Prop :=
  ∃ m ∈ e.core.members, m.id ≠ cfg.localId ∧ m.state = .suspect ∧
    s = { incarnation := m.incarnation, node := m.server.id, src := cfg.localId }

/-- What a call may send outside gossip and leaving. -/
inductive Snd (cfg : Cfg I A) (env : Env I A) : Op I A → Ep I A → Transmit I A → Prop
  | ack (src : A) (p : Ping I A) (now : Nat) (e : Ep I A) (payload : Bytes)
      (h : payload = e.net.ackPayload ∨ payload = []) :
    Snd cfg env (.packet src (.ping p) now) e (.packet src (.ack p.seq payload))
  | refuse (src : A) (p : Ping I A) (now : Nat) (e : Ep I A) :
    Snd cfg env (.packet src (.indirectPing p) now) e (.packet p.source.addr (.nack p.seq))
  | relay (src : A) (p : Ping I A) (now : Nat) (e : Ep I A) (msg : Message I A) (h : fitsMtu cfg env msg = true)
      (hm : ∃ seq, msg = .ping { seq, source := localNode cfg, target := p.target }) :
    Snd cfg env (.packet src (.indirectPing p) now) e (.packet p.target.addr msg)
  | probe (op : Op I A) (now : Nat) (ho : op = .startProbe now ∨ op = .timeout now) (e : Ep I A) (dst : A)
      (msg : Message I A) (h : fitsMtu cfg env msg = true)
      (hm : (∃ p, msg = .ping p) ∨ (∃ s, msg = .suspect s)) (hk : ∀ s, msg = .suspect s → KnownSuspect cfg e s) :
    Snd cfg env op e (.packet dst msg)
  | probeBoth (op : Op I A) (now : Nat) (ho : op = .startProbe now ∨ op = .timeout now) (e : Ep I A) (dst : A)
      (p : Ping I A) (s : BadState I)
      (h : COMPOUND_TAG_LEN + COMPOUND_MAX_COUNT_PREFIX_LEN +
        (COMPOUND_MAX_PART_PREFIX_LEN + wireLen env.CI env.CA (.ping p)) +
        (COMPOUND_MAX_PART_PREFIX_LEN + wireLen env.CI env.CA (.suspect s)) ≤ cfg.gossipMtu)
      (hk : KnownSuspect cfg e s) :
    Snd cfg env op e (.compound dst [.ping p, .suspect s])
  | ping (node : TNode I A) (now : Nat) (e : Ep I A) (p : Ping I A) (b : Bytes)
      (hb : encodeTyped env.CI env.CA (.ping p) = .ok b) (h : b.length ≤ cfg.gossipMtu) :
    Snd cfg env (.ping node now) e (.packet node.addr (.ping p))
  | user (dst : A) (data : Bytes) (op : Op I A)
      (ho : op = .sendUserPacket dst data ∨ op = .sendUserPackets dst [data]) (e : Ep I A)
      (h : wireLen env.CI env.CA (.userData data) ≤ cfg.gossipMtu) :
    Snd cfg env op e (.packet dst (.userData data))
  | users (dst : A) (many : List Bytes) (h2 : 2 ≤ many.length) (e : Ep I A)
      (h : COMPOUND_TAG_LEN + COMPOUND_MAX_COUNT_PREFIX_LEN +
        (many.map (fun p => COMPOUND_MAX_PART_PREFIX_LEN + wireLen env.CI env.CA (.userData p))).sum ≤
          cfg.gossipMtu) :
    Snd cfg env (.sendUserPackets dst many) e (.compound dst (many.map Message.userData))

/-- The request to a relay to reach the target of a probe. -/
def relayRequest (cfg : Cfg I A) (seq : Nat) (p : Probe I A) : Message I A :=
  .indirectPing { seq, source := localNode cfg, target := { id := p.target.id, addr := p.target.addr } }

/-- Why a probe fails during a call. -/
def FailWhy (cfg : Cfg I A) (op : Op I A) (p : Probe I A) (now : Nat) : Prop :=
  op.probeTime = some now ∧
    (p.failureDeadline ≤ now ∨
      (op = .timeout now ∧ p.sentAt + cfg.probeTimeout ≤ now ∧ ∃ d, p.phase = .direct d))

/-- Why a probe succeeds during a call. -/
def DoneWhy (op : Op I A) (seq : Nat) (p : Probe I A) (direct : Bool) (payload : Bytes) (now : Nat) : Prop :=
  (∃ src, op = .packet src (.ack seq payload) now ∧ (p.target.addr = src ∨ src ∈ asked p) ∧
    direct = decide (p.target.addr = src)) ∨
  ((∃ t, op = .streamEvent (.payload (.reliablePingAcked seq now)) t) ∧ direct = false ∧ payload = [])

/-- How a probe starts. -/
def StartWhy (cfg : Cfg I A) (op : Op I A) (e : Ep I A) (p : Probe I A) (a : AckEntry A) : Prop :=
  (∃ node now, op = .ping node now ∧ a.kind = .ping ∧
    p = { Probe.newDirect (pingTarget (e.core.members.get node.id) node)
            (match e.core.members.get node.id with | some m => m.incarnation | none => 0)
            (match e.core.members.get node.id with | some m => m.gen | none => 0)
            now .ping cfg.probeTimeout (now + cfg.probeTimeout) with dispatched := true }) ∨
  (∃ m now, (m ∈ e.core.members ∧ m.id ≠ cfg.localId ∧ m.deadOrLeft = false) ∧
    (op = .startProbe now ∨ op = .timeout now) ∧ a.kind = .probe ∧
    p = Probe.newDirect m.server m.incarnation m.gen now .detection cfg.probeTimeout
      (now + e.core.awareness.scaleTimeout cfg.probeInterval))

/-- What the decomposition needs to know of the tables. -/
structure Tables (n : Net I A) : Prop where
  probes : n.probes.NodupKeys
  forwards : n.forwards.NodupKeys
  reply : ∀ s f a r, n.forwards.get? s = some f → n.acks.get? s = some a → a.kind = .forward r → r = f.replyTo

/-- What a call may do to the application's queue outside gossip and leaving. -/
def UserStep (cfg : Cfg I A) (op : Op I A) (e e' : Ep I A) : Prop :=
  e'.user = e.user ∨ ∃ rank data fin, op = .queueUser rank data ∧ e.core.lifecycle = .running ∧
    data.length ≤ compoundBudget cfg - USER_PART_OVERHEAD ∧
    e.user.queueRanked bytesOps rank data = some (e'.user, fin)

/-- What a call may do to the payload of acks. -/
def PayloadStep (cfg : Cfg I A) (env : Env I A) (op : Op I A) (e e' : Ep I A) : Prop :=
  e'.net.ackPayload = e.net.ackPayload ∨ ∃ b, op = .setAckPayload b ∧ e.core.lifecycle = .running ∧
    wireLen env.CI env.CA (.ack (2 ^ 32 - 1) b : Message I A) ≤ cfg.gossipMtu ∧ e'.net.ackPayload = b

/-- What a call may do to the set of members with which reliable pings are disabled. -/
def DisabledStep (op : Op I A) (e e' : Ep I A) : Prop :=
  e'.net.reliableDisabled = e.net.reliableDisabled ∨
    ∃ id, op = .disableReliablePing id ∨ op = .enableReliablePing id

/-- The schedules, the cached push/pull response and the application's snapshot. -/
def other (e : Ep I A) : Option Nat × Option Nat × Option Nat × PushPull I A × Nat × Bool × Bytes :=
  (e.nextProbe, e.nextGossip, e.nextPushPull, e.cached, e.cachedVer, e.cachedDirty, e.localState)

/-- What a call may do to the cached push/pull response and the application's snapshot: nothing, replace the
snapshot and mark the response as outdated, or rebuild the response. -/
def CacheStep (op : Op I A) (e e' : Ep I A) : Prop :=
  (e'.cached = e.cached ∧ e'.cachedVer = e.cachedVer ∧
    ((e'.cachedDirty = e.cachedDirty ∧ e'.localState = e.localState) ∨
      (e'.cachedDirty = true ∧ (e'.localState = e.localState ∨ op = .setLocalState e'.localState)))) ∨
  (e'.cached = e.buildResponse ∧ e'.cachedVer = e.core.snapVer ∧ e'.localState = e.localState ∧
    ((∃ now, op = .timeout now) ∨ op = .setResponseCompression))

/-- What a call may do to the schedules and the cached response outside leaving: a schedule is armed only if its
interval is positive. -/
structure OtherStep (cfg : Cfg I A) (op : Op I A) (e e' : Ep I A) : Prop where
  probe : e'.nextProbe.isSome → e.nextProbe.isSome ∨ 0 < cfg.probeInterval
  gossip : e'.nextGossip.isSome → e.nextGossip.isSome ∨ 0 < cfg.gossipInterval
  push : e'.nextPushPull.isSome → e.nextPushPull.isSome ∨ 0 < cfg.pushPullInterval
  cache : CacheStep op e e'

omit [DecidableEq I] [DecidableEq A] in
theorem OtherStep.same {cfg : Cfg I A} {op : Op I A} {e e' : Ep I A} (h : other e' = other e) : OtherStep cfg op e e' := by
  simp only [other, Prod.mk.injEq] at h
  obtain ⟨h1, h2, h3, h4, h5, h6, h7⟩ := h
  exact ⟨fun h => .inl (h1 ▸ h), fun h => .inl (h2 ▸ h), fun h => .inl (h3 ▸ h), .inl ⟨h4, h5, .inl ⟨h6, h7⟩⟩⟩

omit [DecidableEq I] [DecidableEq A] in
theorem OtherStep.probeAt {cfg : Cfg I A} {op : Op I A} {e : Ep I A} {x : Option Nat} (h : e.nextProbe.isSome) :
    OtherStep cfg op e { e with nextProbe := x } :=
  ⟨fun _ => .inl h, .inl, .inl, .inl ⟨rfl, rfl, .inl ⟨rfl, rfl⟩⟩⟩

omit [DecidableEq I] [DecidableEq A] in
theorem OtherStep.gossipAt {cfg : Cfg I A} {op : Op I A} {e : Ep I A} {x : Option Nat} (h : e.nextGossip.isSome) :
    OtherStep cfg op e { e with nextGossip := x } :=
  ⟨.inl, fun _ => .inl h, .inl, .inl ⟨rfl, rfl, .inl ⟨rfl, rfl⟩⟩⟩

omit [DecidableEq I] [DecidableEq A] in
theorem OtherStep.pushAt {cfg : Cfg I A} {op : Op I A} {e : Ep I A} {x : Option Nat} (h : e.nextPushPull.isSome) :
    OtherStep cfg op e { e with nextPushPull := x } :=
  ⟨.inl, .inl, fun _ => .inl h, .inl ⟨rfl, rfl, .inl ⟨rfl, rfl⟩⟩⟩

/-- Why a stream is to be opened: the application asked for it, the push/pull timer picked a live member, or a probe
that got no direct answer falls back on a reliable ping. -/
inductive IntentWhy (cfg : Cfg I A) (env : Env I A) (op : Op I A) (e : Ep I A) : Intent A → Prop
  | pushPull (peer : A) (kind : PushPullKind) (now : Nat)
      (ho : op = .startPushPull peer kind now ∨ op = .startPushPullDirect peer kind now ∨
        (op = .timeout now ∧ kind = .refresh ∧ peer ∈ livePeers cfg e.core.members)) :
    IntentWhy cfg env op e
      { peer, kind := .pushPull kind, deadline := now + cfg.streamTimeout
        encoded := encodeBytes env (.pushPull
          { join := kind == .join, states := tableStates e.core.members, userData := e.localState }) }
  | reliable (peerId : I) (peer : A) (seq d : Nat)
      (ho : op = .startReliablePing peerId peer seq d ∨ op = .startReliablePingDirect peerId peer seq d ∨
        (∃ now p, op = .timeout now ∧ e.net.probes.get? seq = some p ∧ p.kind = .detection ∧ p.target.id = peerId ∧
          p.target.addr = peer ∧ p.failureDeadline = d ∧ peerId ∉ e.net.reliableDisabled)) :
    IntentWhy cfg env op e
      { peer, kind := .reliablePing seq, deadline := d
        encoded := encodeBytes env (.ping { seq, source := localNode cfg, target := { id := peerId, addr := peer } }) }
  | user (peer : A) (payload : Bytes) (now : Nat)
      (ho : op = .startUserMessage peer payload now ∨ op = .startUserMessageDirect peer payload now) :
    IntentWhy cfg env op e
      { peer, kind := .userMessage, deadline := now + cfg.streamTimeout, encoded := encodeBytes env (.userData payload) }

/-- A stream to open, under a new id. -/
def addIntent (e : Ep I A) (i : Intent A) : Ep I A :=
  { e with net := (insertIntent { e.net with nextStreamId := e.net.nextStreamId + 1 } e.net.nextStreamId i) }

/-- Why a stream request is taken out outside leaving and the failure of its probe. -/
def UnintentWhy (op : Op I A) (e : Ep I A) (id : Nat) : Prop :=
  (∃ now, op = .dialSucceeded id now) ∨ op = .dialFailed id ∨
  ∃ now i, op = .timeout now ∧ (id, i) ∈ e.net.intents ∧ i.deadline ≤ now

/-- The fallback of a probe that turns to relays. -/
def FallbackOf (e : Ep I A) (seq : Nat) (p : Probe I A) (st : Option Nat) : Prop :=
  (st = none ↔ p.target.id ∈ e.net.reliableDisabled) ∧
  ∀ rid, st = some rid → rid + 1 = e.net.nextStreamId ∧ ∃ i, e.net.intents.get? rid = some i ∧ i.peer = p.target.addr ∧
    i.kind = .reliablePing seq ∧ i.deadline = p.failureDeadline

/-- An elementary step. Probes end before any is started in the same call: `late` marks the second part. -/
inductive Micro (cfg : Cfg I A) (env : Env I A) (op : Op I A) (late : Bool) : Ep I A → Ep I A → Prop
  | core (e : Ep I A) (x : Act I A) (hx : CoreOf cfg env op x) :
    Micro cfg env op late e { e with core := act cfg env e.core x }
  | aux (e e' : Ep I A) (hc : e'.core = e.core) (hn : SameNet e.net e'.net) (hf : e'.leaveFlush = e.leaveFlush)
      (hu : UserStep cfg op e e') (hp : PayloadStep cfg env op e e' ∧ DisabledStep op e e')
      (ho : OtherStep cfg op e e') : Micro cfg env op late e e'
  | send (e : Ep I A) (t : Transmit I A) (h : Snd cfg env op e t) : Micro cfg env op late e (e.send t)
  | dial (e : Ep I A) (id : Nat) (peer : A) (d : Nat) (hr : e.core.lifecycle = .running)
      (h : op = .requeueDial id peer d) :
    Micro cfg env op late e (e.pushEvent (.dialRequested id peer d))
  | start (e : Ep I A) (seq : Nat) (p : Probe I A) (a : AckEntry A) (hs : allocSeq e.net = some seq)
      (hr : e.core.lifecycle = .running) (hw : StartWhy cfg op e p a) (hlate : late = true) :
    Micro cfg env op late e { e with net := { e.net with
      nextSeq := seq, probes := e.net.probes.insert seq p, acks := e.net.acks.insert seq a } }
  | alloc (e : Ep I A) (seq : Nat) (hs : allocSeq e.net = some seq) :
    Micro cfg env op late e { e with net := { e.net with nextSeq := seq } }
  | dispatched (e : Ep I A) (seq : Nat) (b : Bool) (hlate : late = true) :
    Micro cfg env op late e { e with net := { e.net with
      probes := e.net.probes.modify seq (fun p => { p with dispatched := b }) } }
  | fail (e : Ep I A) (seq : Nat) (p : Probe I A) (now : Nat) (hp : e.net.probes.get? seq = some p)
      (hw : FailWhy cfg op p now) (hr : e.core.lifecycle = .running) (hlate : late = false)
      (hx : now < p.failureDeadline → p.kind = .detection → p.target.id ∈ e.net.reliableDisabled ∧
        (fitsMtu cfg env (relayRequest cfg seq p) = true →
          min cfg.indirectChecks (relayCandidates e.core.members cfg.advertise p.target.addr).length = 0)) :
    Micro cfg env op late e (e.probeTerminateFailure cfg env seq now)
  | done (e : Ep I A) (seq : Nat) (p : Probe I A) (direct : Bool) (payload : Bytes) (now : Nat)
      (hp : e.net.probes.get? seq = some p) (hd : now < p.failureDeadline)
      (hw : DoneWhy op seq p direct payload now) (hr : e.core.lifecycle = .running) (hlate : late = false) :
    Micro cfg env op late e (e.completeProbeSuccess cfg env seq direct payload now)
  | nack (e : Ep I A) (src : A) (seq now : Nat) (ho : op = .packet src (.nack seq) now) :
    Micro cfg env op late e (e.handleNack src seq now)
  | fan (e : Ep I A) (seq : Nat) (p : Probe I A) (now : Nat) (peers : List A) (st : Option Nat)
      (ho : op = .timeout now) (hp : e.net.probes.get? seq = some p) (hk : p.kind = .detection)
      (hph : ∃ d, p.phase = .direct d) (hd : p.sentAt + cfg.probeTimeout ≤ now) (hf : now < p.failureDeadline)
      (hl : peers.length ≤ cfg.indirectChecks) (hnd : peers.Nodup)
      (ha : ∀ a ∈ peers, a ∈ relayCandidates e.core.members cfg.advertise p.target.addr)
      (hfit : peers ≠ [] → fitsMtu cfg env (relayRequest cfg seq p) = true) (hlate : late = false)
      (hall : fitsMtu cfg env (relayRequest cfg seq p) = true →
        peers.length = min cfg.indirectChecks (relayCandidates e.core.members cfg.advertise p.target.addr).length)
      (hst : FallbackOf e seq p st) (hne : peers = [] → st ≠ none) :
    Micro cfg env op late e { e with net := { e.net with
      transmits := e.net.transmits ++ peers.map (fun a => .packet a (relayRequest cfg seq p))
      probes := e.net.probes.modify seq (fun p =>
        { p with dispatched := true, phase := .indirect peers.length peers [] st p.failureDeadline }) } }
  | fwd (e : Ep I A) (seq : Nat) (src : A) (p : Ping I A) (now : Nat)
      (ho : op = .packet src (.indirectPing p) now) (hs : allocSeq e.net = some seq)
      (hsrc : src = p.source.addr) (hl : e.net.forwards.length < cfg.maxIndirectForwards)
      (hnew : ∀ f ∈ e.net.forwards, ¬ (f.2.replyTo = p.source.addr ∧ f.2.requesterSeq = p.seq ∧
        f.2.target = p.target.addr)) :
    Micro cfg env op late e { e with net := { e.net with
      nextSeq := seq
      acks := e.net.acks.insert seq
        { sent := now, deadline := now + cfg.probeTimeout, kind := .forward p.source.addr }
      forwards := e.net.forwards.insert seq
        { replyTo := p.source.addr, target := p.target.addr, requesterSeq := p.seq
          deadline := now + cfg.probeTimeout } } }
  | fwdAnswer (e : Ep I A) (seq : Nat) (f : Forward A) (hf : e.net.forwards.get? seq = some f) (payload : Bytes)
      (now : Nat) (ho : op = .packet f.target (.ack seq payload) now) (hd : now < f.deadline) :
    Micro cfg env op late e (send { e with net := { e.net with
      forwards := e.net.forwards.erase seq, acks := e.net.acks.erase seq } }
      (.packet f.replyTo (.ack f.requesterSeq payload)))
  | fwdExpire (e : Ep I A) (seq : Nat) (f : Forward A) (hf : e.net.forwards.get? seq = some f) (now : Nat)
      (ho : op = .timeout now) (hd : f.deadline ≤ now) :
    Micro cfg env op late e (send { e with net := { e.net with
      forwards := e.net.forwards.erase seq, acks := e.net.acks.erase seq } }
      (.packet f.replyTo (.nack f.requesterSeq)))
  | intent (e : Ep I A) (i : Intent A) (hr : e.core.lifecycle = .running) (hw : IntentWhy cfg env op e i)
      (hd : op.isDirect = true) :
    Micro cfg env op late e (e.addIntent i)
  | intentDial (e : Ep I A) (i : Intent A) (hr : e.core.lifecycle = .running) (hw : IntentWhy cfg env op e i) :
    Micro cfg env op late e ((e.addIntent i).pushEvent (.dialRequested e.net.nextStreamId i.peer i.deadline))
  | skipId (e : Ep I A) : Micro cfg env op late e { e with net := { e.net with nextStreamId := e.net.nextStreamId + 1 } }
  | unintent (e : Ep I A) (id : Nat) (hw : UnintentWhy op e id) : Micro cfg env op late e { e with net := removeIntent e.net id }
  | retire (e : Ep I A) (seq : Nat) : Micro cfg env op late e { e with net := retireFallback e.net seq }
  | gossip (e : Ep I A) (targets : List A) (now : Nat) (ho : op = .timeout now) (hr : e.core.lifecycle = .running)
      (hlate : late = true) :
    Micro cfg env op late e ((e.drainGossip cfg env).1.sendAll targets (e.drainGossip cfg env).2)
  | leave (e : Ep I A) (now : Nat) (f : Option Bytes) (ho : op = .leave now f) (hr : e.core.lifecycle = .running) :
    Micro cfg env op late e (e.leaveWith cfg env now f)
  | poll (e : Ep I A) (ho : op = .pollTransmit) : Micro cfg env op late e e.pollTransmit.1

/-- A sequence of elementary steps. -/
abbrev Micros (cfg : Cfg I A) (env : Env I A) (op : Op I A) (late : Bool) : Ep I A → Ep I A → Prop :=
  Relation.ReflTransGen (Micro cfg env op late)

variable {op : Op I A} {late : Bool}

theorem Micros.of {e e' : Ep I A} (h : Micro cfg env op late e e') : Micros cfg env op late e e' := .single h

theorem Micros.of_eq {e e' : Ep I A} (h : e' = e) : Micros cfg env op late e e' := h ▸ .refl

theorem Micros.snoc {a b c : Ep I A} (h : Micros cfg env op late a b) (h2 : Micro cfg env op late b c) :
    Micros cfg env op late a c := Relation.ReflTransGen.tail h h2

theorem Micros.trans {a b c : Ep I A} (h : Micros cfg env op late a b) (h2 : Micros cfg env op late b c) :
    Micros cfg env op late a c := Relation.ReflTransGen.trans h h2

theorem micros_aux {e e' : Ep I A} (hc : e'.core = e.core) (hn : e'.net = e.net)
    (hf : e'.leaveFlush = e.leaveFlush) (hu : e'.user = e.user := by rfl)
    (ho : OtherStep cfg op e e' := by exact .same rfl) : Micros cfg env op late e e' :=
  .of (.aux e e' hc (by rw [hn]; exact .refl _) hf (.inl hu) ⟨.inl (by rw [hn]), .inl (by rw [hn])⟩ ho)

/-- Actions on the core as elementary steps. -/
theorem micros_acts {e : Ep I A} {c c' : Core I A} (hc : e.core = c) (h : Acts cfg env (CoreOf cfg env op) c c') :
    Micros cfg env op late e { e with core := c' } := by
  induction h with
  | refl => subst hc; exact .refl
  | snoc _ hp ih => exact ih.tail (.core _ _ hp)

/-- A function that changes only the core, through actions, and the tick and schedules. -/
theorem micros_core {e e' : Ep I A} (h : Acts cfg env (CoreOf cfg env op) e.core e'.core) (hn : e'.net = e.net)
    (hf : e'.leaveFlush = e.leaveFlush) (hu : e'.user = e.user := by rfl)
    (ho : OtherStep cfg op { e with core := e'.core } e' := by exact .same rfl) :
    Micros cfg env op late e e' :=
  (micros_acts rfl h).tail (.aux _ _ rfl (by rw [hn]; exact .refl _) hf (.inl hu) ⟨.inl (by rw [hn]), .inl (by rw [hn])⟩ ho)

theorem micros_foldl {α : Type} (f : Ep I A → α → Ep I A) (l : List α)
    (h : ∀ e x, x ∈ l → Micros cfg env op late e (f e x)) (e : Ep I A) :
    Micros cfg env op late e (l.foldl f e) := by
  induction l generalizing e with
  | nil => exact .refl
  | cons x l ih =>
    exact (h e x (by simp)).trans (ih (fun e y hy => h e y (List.mem_cons_of_mem _ hy)) (f e x))

/-! ### Probes and acks -/

theorem Map.erase_erase {K V : Type} [DecidableEq K] (m : Map K V) (k : K) : (m.erase k).erase k = m.erase k := by
  simp [Map.erase, List.filter_filter]

/-- Consuming the ack entry first makes no difference. -/
theorem terminate_consumed (e : Ep I A) (seq now : Nat) (p : Probe I A) (hp : e.net.probes.get? seq = some p) :
    ({ e with net := { e.net with acks := e.net.acks.erase seq } }).probeTerminateFailure cfg env seq now =
      e.probeTerminateFailure cfg env seq now := by
  have : discardProbe ({ e.net with acks := e.net.acks.erase seq }) seq p = discardProbe e.net seq p := by
    unfold discardProbe
    simp only [Map.erase_erase]
  unfold probeTerminateFailure
  simp only [hp, this]

theorem complete_consumed (e : Ep I A) (seq now : Nat) (d : Bool) (pl : Bytes) (p : Probe I A)
    (hp : e.net.probes.get? seq = some p) :
    ({ e with net := { e.net with acks := e.net.acks.erase seq } }).completeProbeSuccess cfg env seq d pl now =
      e.completeProbeSuccess cfg env seq d pl now := by
  unfold completeProbeSuccess
  simp only [hp, terminate_consumed e seq now p hp, Map.erase_erase]

theorem complete_late (e : Ep I A) (seq now : Nat) (d : Bool) (pl : Bytes) (p : Probe I A)
    (hp : e.net.probes.get? seq = some p) (hl : p.failureDeadline ≤ now) :
    e.completeProbeSuccess cfg env seq d pl now = e.probeTerminateFailure cfg env seq now := by
  unfold completeProbeSuccess
  simp only [hp]
  rw [if_pos hl]

theorem complete_micros (e : Ep I A) (seq now : Nat) (d : Bool) (pl : Bytes)
    (hr : e.core.lifecycle = .running) (ht : op.probeTime = some now) (hlate : late = false)
    (hw : ∀ p, e.net.probes.get? seq = some p → DoneWhy op seq p d pl now) :
    Micros cfg env op late e (e.completeProbeSuccess cfg env seq d pl now) := by
  cases hp : e.net.probes.get? seq with
  | none => refine .of_eq ?_; unfold completeProbeSuccess; simp only [hp]
  | some p =>
    by_cases hl : p.failureDeadline ≤ now
    · rw [complete_late e seq now d pl p hp hl]
      exact .of (.fail e seq p now hp ⟨ht, .inl hl⟩ hr hlate (fun h => absurd h (by omega)))
    · exact .of (.done e seq p d pl now hp (by omega) (hw p hp) hr hlate)

theorem ackSource_probe {n : Net I A} {seq : Nat} {k : AckKind A} {src : A}
    (h : ackSourceValid n seq k src = true) (hk : ∀ r, k ≠ .forward r) :
    ∃ p, n.probes.get? seq = some p ∧ (p.target.addr = src ∨ src ∈ asked p) := by
  unfold ackSourceValid at h
  have key : ∀ (x : Option (Probe I A)), (match x with
      | none => false
      | some p => decide (p.target.addr = src) || (match p.phase with
        | .indirect _ peers _ _ _ => decide (src ∈ peers)
        | .direct _ => false)) = true → ∃ p, x = some p ∧ (p.target.addr = src ∨ src ∈ asked p) := by
    intro x hx
    cases x with
    | none => simp at hx
    | some p =>
      refine ⟨p, rfl, ?_⟩
      unfold asked
      simp only [Bool.or_eq_true, decide_eq_true_eq] at hx
      rcases hx with hx | hx
      · exact .inl hx
      · right
        cases hph : p.phase with
        | direct d => rw [hph] at hx; simp at hx
        | indirect ex ps nb st d => rw [hph] at hx; simpa using hx
  cases k with
  | probe => exact key _ h
  | ping => exact key _ h
  | forward r => exact absurd rfl (hk r)

theorem ackSource_fwd {n : Net I A} {seq : Nat} {r : A} {src : A}
    (h : ackSourceValid n seq (.forward r) src = true) :
    ∃ f, n.forwards.get? seq = some f ∧ f.target = src := by
  unfold ackSourceValid at h
  dsimp only at h
  cases hf : n.forwards.get? seq with
  | none => rw [hf] at h; simp at h
  | some f => rw [hf] at h; exact ⟨f, rfl, by simpa using h⟩

theorem directAck_eq {n : Net I A} {seq : Nat} {src : A} {p : Probe I A} (h : n.probes.get? seq = some p) :
    directAck n seq src = decide (p.target.addr = src) := by
  unfold directAck; rw [h]

theorem handleAck_micros (e : Ep I A) (src : A) (seq : Nat) (pl : Bytes) (now : Nat)
    (hr : e.core.lifecycle = .running) (ho : op = .packet src (.ack seq pl) now) (ht : Tables e.net)
    (hlate : late = false) :
    Micros cfg env op late e (e.handleAck cfg env src seq pl now) := by
  unfold handleAck
  split
  · exact .refl
  · rename_i entry hentry
    split
    · exact .refl
    · rename_i hv
      simp only [Bool.not_eq_true', Bool.not_eq_false] at hv
      dsimp only
      have probe : (∀ r, entry.kind ≠ .forward r) → Micros cfg env op late e
          (({ e with net := { e.net with acks := e.net.acks.erase seq } }).completeProbeSuccess cfg env seq
            (directAck e.net seq src) pl now) := by
        intro hk
        obtain ⟨p, hp, hsrc⟩ := ackSource_probe hv hk
        rw [complete_consumed e seq now _ pl p hp]
        refine complete_micros e seq now _ pl hr (by rw [ho]; rfl) hlate (fun q hq => ?_)
        rw [hp] at hq; cases hq
        exact .inl ⟨src, ho, hsrc, directAck_eq hp⟩
      split
      · rename_i r hk
        rw [hk] at hv
        obtain ⟨f, hf, hsrc⟩ := ackSource_fwd hv
        have hreply := ht.reply _ _ _ _ hf hentry hk
        rw [hf]
        dsimp only
        split
        · exact .refl
        · rename_i hlt
          rw [hreply]
          exact .of (.fwdAnswer e seq f hf pl now (by rw [hsrc]; exact ho) (by omega))
      · rename_i hk
        exact probe hk

theorem handlePing_micros (e : Ep I A) (src : A) (p : Ping I A) (now : Nat)
    (ho : op = .packet src (.ping p) now) :
    Micros cfg env op late e (e.handlePing cfg src p) := by
  unfold handlePing
  split
  · exact .refl
  · split
    · exact .of (.send _ _ (by rw [ho]; exact .ack _ _ _ _ _ (.inl rfl)))
    · dsimp only
      refine Micros.snoc (.of (.aux e
        { e with net := { e.net with payloadsWithheld := e.net.payloadsWithheld + 1 } } rfl ⟨rfl, rfl, rfl, rfl, rfl, rfl, rfl, rfl⟩ rfl (.inl rfl) ⟨.inl rfl, .inl rfl⟩ (.same rfl))) ?_
      exact .send _ _ (by rw [ho]; exact .ack _ _ _ _ _ (.inr rfl))

theorem handleIndirectPing_micros (e : Ep I A) (src : A) (p : Ping I A) (now : Nat)
    (ho : op = .packet src (.indirectPing p) now) :
    Micros cfg env op late e (e.handleIndirectPing cfg env src p now) := by
  unfold handleIndirectPing
  split
  · exact .refl
  · rename_i hsrc
    split
    · exact .of (.aux _ _ rfl ⟨rfl, rfl, rfl, rfl, rfl, rfl, rfl, rfl⟩ rfl (.inl rfl) ⟨.inl rfl, .inl rfl⟩ (.same rfl))
    · rename_i hl
      split
      · exact .refl
      · rename_i hnew
        cases hs : allocSeq e.net with
        | none => exact .refl
        | some seq =>
          dsimp only
          split
          · refine Micros.snoc (.snoc (.of (.alloc e seq hs)) (.aux _
              { e with net := { e.net with nextSeq := seq, fwdOversized := e.net.fwdOversized + 1 } } rfl
              ⟨rfl, rfl, rfl, rfl, rfl, rfl, rfl, rfl⟩ rfl (.inl rfl) ⟨.inl rfl, .inl rfl⟩ (.same rfl))) ?_
            exact .send _ _ (by rw [ho]; exact .refuse ..)
          · rename_i hfit
            refine Micros.snoc (.of (.fwd e seq src p now ho hs (by simpa using hsrc) (by omega) ?_)) ?_
            · intro f hf hc
              apply hnew
              rw [List.any_eq_true]
              exact ⟨f, hf, by simpa using hc⟩
            · refine .send _ _ ?_
              rw [ho]
              exact .relay _ _ _ _ _ (by simpa using hfit) ⟨seq, rfl⟩

theorem isRunning_iff {e : Ep I A} : (!e.isRunning) = true ↔ e.core.lifecycle ≠ .running := by
  simp [isRunning]

theorem ping_micros (e : Ep I A) (node : TNode I A) (now : Nat) (ho : op = .ping node now) (hlate : late = true) :
    Micros cfg env op late e (e.ping cfg env node now).1 := by
  unfold ping
  split
  · exact .refl
  · rename_i hr
    rw [isRunning_iff, ne_eq, Decidable.not_not] at hr
    dsimp only
    cases hs : allocSeq e.net with
    | none => exact .refl
    | some seq =>
      dsimp only
      split
      · exact .of (.alloc e seq hs)
      · rename_i b hb
        split
        · exact .of (.alloc e seq hs)
        · rename_i hfit
          refine Micros.snoc (.of (.start e seq _
            { sent := now, deadline := now + cfg.probeTimeout, kind := .ping } hs hr (.inl ⟨node, now, ho, rfl, rfl⟩) hlate)) ?_
          · refine .send _ _ ?_
            rw [ho]
            exact .ping _ _ _ _ b hb (by omega)

theorem pushWithinMtu_micros (e : Ep I A) (dst : A) (m : Message I A)
    (h : fitsMtu cfg env m = true → Snd cfg env op e (.packet dst m)) :
    Micros cfg env op late e (e.pushWithinMtu cfg env dst m).1 := by
  unfold pushWithinMtu
  split
  · rename_i hf; exact .of (.send _ _ (h hf))
  · exact .refl

theorem sendProbe_micros (e : Ep I A) (m : Member I A) (seq now : Nat)
    (ho : op = .startProbe now ∨ op = .timeout now) (hmem : m ∈ e.core.members ∧ m.id ≠ cfg.localId) :
    Micros cfg env op late e (e.sendProbe cfg env m seq).1 := by
  unfold sendProbe
  dsimp only
  split
  · rename_i hst
    split
    · rename_i hfit
      exact .of (.send _ _ (.probeBoth op now ho _ _ _ _ hfit ⟨m, hmem.1, hmem.2, hst, rfl⟩))
    · refine Micros.trans (pushWithinMtu_micros e m.server.addr (.ping { seq, source := localNode cfg, target := { id := m.server.id, addr := m.server.addr } }) (fun hf => .probe op now ho e _ _ hf (.inl ⟨_, rfl⟩) (fun _ h => by cases h))) ?_
      refine pushWithinMtu_micros _ _ _ (fun hf => .probe op now ho _ _ _ hf (.inr ⟨_, rfl⟩) (fun s h => ?_))
      cases h
      refine ⟨m, ?_, hmem.2, hst, rfl⟩
      unfold pushWithinMtu
      split <;> exact hmem.1
  · exact pushWithinMtu_micros e _ _ (fun hf => .probe op now ho e _ _ hf (.inl ⟨_, rfl⟩) (fun _ h => by cases h))

theorem probeScan_mem {t : Table I A} {index fuel off : Nat} {m : Member I A} {i : Nat}
    (h : probeScan cfg t index fuel off = some (m, i)) :
    m ∈ t ∧ m.id ≠ cfg.localId ∧ m.deadOrLeft = false := by
  induction fuel generalizing off with
  | zero => simp [probeScan] at h
  | succ fuel ih =>
    rw [probeScan] at h
    split at h
    · exact ih h
    · rename_i x hx
      split at h
      · exact ih h
      · rename_i hc
        cases h
        simp only [not_or, Bool.not_eq_true] at hc
        exact ⟨List.mem_of_getElem? hx, hc.1, hc.2⟩

theorem nextProbeTarget_mem {e : Ep I A} {m : Member I A} {i : Nat} (h : e.nextProbeTarget cfg = some (m, i)) :
    m ∈ e.core.members ∧ m.id ≠ cfg.localId ∧ m.deadOrLeft = false := by
  unfold nextProbeTarget at h
  split at h
  · cases h
  · exact probeScan_mem h

theorem startProbe_micros (e : Ep I A) (now : Nat) (ho : op = .startProbe now ∨ op = .timeout now)
    (hlate : late = true) :
    Micros cfg env op late e (e.startProbe cfg env now).1 := by
  unfold startProbe
  split
  · exact .refl
  · rename_i hr
    rw [isRunning_iff, ne_eq, Decidable.not_not] at hr
    split
    · exact .refl
    · rename_i m index ht
      have hmem := nextProbeTarget_mem ht
      dsimp only
      split
      · exact micros_aux rfl rfl rfl
      · rename_i seq hs
        refine Micros.trans (micros_aux (e := e) (e' := { e with probeIndex := index }) rfl rfl rfl) ?_
        refine Micros.snoc (Relation.ReflTransGen.trans
          (Micros.of (.start { e with probeIndex := index } seq _
            { sent := now, deadline := now + cfg.probeTimeout, kind := .probe } hs hr
            (.inr ⟨m, now, hmem, ho, rfl, rfl⟩) hlate))
          (sendProbe_micros _ m seq now ho ⟨hmem.1, hmem.2.1⟩)) ?_
        · exact .dispatched _ seq _ hlate

/-! ### Stream intents -/

theorem startPushPullDirect_micros (e : Ep I A) (peer : A) (kind : PushPullKind) (now : Nat)
    (ho : op = .startPushPullDirect peer kind now) :
    Micros cfg env op late e (e.startPushPullDirect cfg env peer kind now).1 := by
  unfold startPushPullDirect
  dsimp only
  split
  · exact .of (.skipId e)
  · rename_i hr
    rw [isRunning_iff, ne_eq, Decidable.not_not] at hr
    exact .of (.intent e _ hr (.pushPull peer kind now (.inr (.inl ho))) (by rw [ho]; rfl))

theorem startReliablePingDirect_micros (e : Ep I A) (id : I) (peer : A) (seq d : Nat)
    (ho : op = .startReliablePingDirect id peer seq d) :
    Micros cfg env op late e (e.startReliablePingDirect cfg env id peer seq d).1 := by
  unfold startReliablePingDirect
  dsimp only
  split
  · exact .of (.skipId e)
  · rename_i hr
    rw [isRunning_iff, ne_eq, Decidable.not_not] at hr
    exact .of (.intent e _ hr (.reliable id peer seq d (.inr (.inl ho))) (by rw [ho]; rfl))

theorem startUserMessageDirect_micros (e : Ep I A) (peer : A) (pl : Bytes) (now : Nat)
    (ho : op = .startUserMessageDirect peer pl now) :
    Micros cfg env op late e (e.startUserMessageDirect cfg env peer pl now).1 := by
  unfold startUserMessageDirect
  dsimp only
  split
  · exact .refl
  · rename_i hr
    rw [isRunning_iff, ne_eq, Decidable.not_not] at hr
    exact .of (.intent e _ hr (.user peer pl now (.inr ho)) (by rw [ho]; rfl))

theorem startPushPull_micros (e : Ep I A) (peer : A) (kind : PushPullKind) (now : Nat)
    (ho : op = .startPushPull peer kind now ∨ op = .startPushPullDirect peer kind now ∨
        (op = .timeout now ∧ kind = .refresh ∧ peer ∈ livePeers cfg e.core.members)) :
    Micros cfg env op late e (e.startPushPull cfg env peer kind now).1 := by
  unfold startPushPull startPushPullDirect
  dsimp only
  split
  · exact .of (.skipId e)
  · rename_i hr
    rw [isRunning_iff, ne_eq, Decidable.not_not] at hr
    exact .of (.intentDial e _ hr (.pushPull peer kind now ho))

theorem startReliablePing_micros (e : Ep I A) (id : I) (peer : A) (seq d : Nat)
    (ho : op = .startReliablePing id peer seq d ∨ op = .startReliablePingDirect id peer seq d ∨
      (∃ now p, op = .timeout now ∧ e.net.probes.get? seq = some p ∧ p.kind = .detection ∧ p.target.id = id ∧
          p.target.addr = peer ∧ p.failureDeadline = d ∧ id ∉ e.net.reliableDisabled)) :
    Micros cfg env op late e (e.startReliablePing cfg env id peer seq d).1 := by
  unfold startReliablePing startReliablePingDirect
  dsimp only
  split
  · exact .of (.skipId e)
  · rename_i hr
    rw [isRunning_iff, ne_eq, Decidable.not_not] at hr
    exact .of (.intentDial e _ hr (.reliable id peer seq d ho))

theorem startUserMessage_micros (e : Ep I A) (peer : A) (pl : Bytes) (now : Nat)
    (ho : op = .startUserMessage peer pl now) :
    Micros cfg env op late e (e.startUserMessage cfg env peer pl now).1 := by
  unfold startUserMessage startUserMessageDirect
  by_cases hr : e.core.lifecycle = .running
  · rw [if_neg (by simp [isRunning, hr])]
    exact .of (.intentDial e _ hr (.user peer pl now (.inl ho)))
  · rw [if_pos (by simp [isRunning, hr])]

theorem dropIntent_micros (e : Ep I A) (id : Nat)
    (hw : ∀ i, e.net.intents.get? id = some i → UnintentWhy op e id) :
    Micros cfg env op late e { e with net := dropIntent e.net id } := by
  unfold dropIntent
  split
  · exact .refl
  · rename_i i hi
    dsimp only
    split
    · exact .snoc (.of (.unintent e id (hw i hi))) (.retire _ _)
    · exact .of (.unintent e id (hw i hi))

theorem dialSucceeded_micros (e : Ep I A) (id now : Nat) (hw : UnintentWhy op e id) :
    Micros cfg env op late e (e.dialSucceeded cfg id now).1 := by
  unfold dialSucceeded
  split
  · exact .of (.unintent e id hw)
  · dsimp only
    split
    · split
      · exact .snoc (.of (.unintent e id hw)) (.retire _ _)
      · exact .of (.unintent e id hw)
    · split
      · split
        · exact .snoc (.of (.unintent e id hw)) (.retire _ _)
        · exact .of (.unintent e id hw)
      · exact .of (.unintent e id hw)

/-! ### Timers -/

theorem relayCandidates_nodup (t : Table I A) (l r : A) : (relayCandidates t l r).Nodup := by
  unfold relayCandidates
  have : ∀ (t : Table I A) (acc : List A), acc.Nodup → (t.foldl (fun acc m =>
      if m.state ≠ .alive then acc
      else if m.server.addr = l ∨ m.server.addr = r then acc
      else if m.server.addr ∈ acc then acc
      else acc ++ [m.server.addr]) acc).Nodup := by
    intro t
    induction t with
    | nil => intro acc h; exact h
    | cons m t ih =>
      intro acc h
      rw [List.foldl_cons]
      apply ih
      split
      · exact h
      · split
        · exact h
        · split
          · exact h
          · rename_i hm
            rw [List.nodup_append]
            exact ⟨h, by simp, by rintro a ha b hb rfl; simp at hb; subst hb; exact hm ha⟩
  exact this t [] List.nodup_nil

theorem mem_relayCandidates {t : Table I A} {l r a : A} :
    a ∈ relayCandidates t l r ↔ (∃ m ∈ t, m.state = .alive ∧ m.server.addr = a) ∧ a ≠ l ∧ a ≠ r := by
  unfold relayCandidates
  have : ∀ (t : Table I A) (acc : List A), a ∈ (t.foldl (fun acc m =>
      if m.state ≠ .alive then acc
      else if m.server.addr = l ∨ m.server.addr = r then acc
      else if m.server.addr ∈ acc then acc
      else acc ++ [m.server.addr]) acc) ↔
      a ∈ acc ∨ ((∃ m ∈ t, m.state = .alive ∧ m.server.addr = a) ∧ a ≠ l ∧ a ≠ r) := by
    intro t
    induction t with
    | nil => intro acc; simp
    | cons m t ih =>
      intro acc
      rw [List.foldl_cons, ih]
      by_cases h1 : m.state = .alive
      · by_cases h2 : m.server.addr = l ∨ m.server.addr = r
        · simp only [h1, ne_eq, not_true_eq_false, if_false, h2, if_true]
          constructor
          · rintro (h | ⟨⟨x, hx, hs⟩, h⟩)
            · exact .inl h
            · exact .inr ⟨⟨x, List.mem_cons_of_mem _ hx, hs⟩, h⟩
          · rintro (h | ⟨⟨x, hx, hs⟩, h⟩)
            · exact .inl h
            · rcases List.mem_cons.1 hx with rfl | hx
              · rcases h2 with h2 | h2
                · exact absurd (hs.2.symm.trans h2) h.1
                · exact absurd (hs.2.symm.trans h2) h.2
              · exact .inr ⟨⟨x, hx, hs⟩, h⟩
        · by_cases h3 : m.server.addr ∈ acc
          · simp only [h1, ne_eq, not_true_eq_false, if_false, h2, h3, if_true]
            constructor
            · rintro (h | ⟨⟨x, hx, hs⟩, h⟩)
              · exact .inl h
              · exact .inr ⟨⟨x, List.mem_cons_of_mem _ hx, hs⟩, h⟩
            · rintro (h | ⟨⟨x, hx, hs⟩, h⟩)
              · exact .inl h
              · rcases List.mem_cons.1 hx with rfl | hx
                · exact .inl (hs.2 ▸ h3)
                · exact .inr ⟨⟨x, hx, hs⟩, h⟩
          · simp only [h1, ne_eq, not_true_eq_false, if_false, h2, h3]
            constructor
            · rintro (h | ⟨⟨x, hx, hs⟩, h⟩)
              · rcases List.mem_append.1 h with h | h
                · exact .inl h
                · simp only [List.mem_singleton] at h
                  subst h
                  exact .inr ⟨⟨m, by simp, h1, rfl⟩, fun h => h2 (.inl h), fun h => h2 (.inr h)⟩
              · exact .inr ⟨⟨x, List.mem_cons_of_mem _ hx, hs⟩, h⟩
            · rintro (h | ⟨⟨x, hx, hs⟩, h⟩)
              · exact .inl (List.mem_append_left _ h)
              · rcases List.mem_cons.1 hx with rfl | hx
                · exact .inl (List.mem_append_right _ (by simp [hs.2]))
                · exact .inr ⟨⟨x, hx, hs⟩, h⟩
      · simp only [ne_eq, h1, not_false_eq_true, if_true]
        constructor
        · rintro (h | ⟨⟨x, hx, hs⟩, h⟩)
          · exact .inl h
          · exact .inr ⟨⟨x, List.mem_cons_of_mem _ hx, hs⟩, h⟩
        · rintro (h | ⟨⟨x, hx, hs⟩, h⟩)
          · exact .inl h
          · rcases List.mem_cons.1 hx with rfl | hx
            · exact absurd hs.1 h1
            · exact .inr ⟨⟨x, hx, hs⟩, h⟩
  rw [this]; simp

/-- Reservoir sampling picks distinct items of the pool, at most `k`. -/
theorem reservoir_spec {T : Type} (k : Nat) (σ : Nat → Nat) (xs : List T) :
    ∀ (i : Nat) (res : List T), (res ++ xs).Nodup → res.length ≤ k →
      (reservoir k σ i xs res).Nodup ∧ (reservoir k σ i xs res).length ≤ k ∧
        ∀ a ∈ reservoir k σ i xs res, a ∈ res ∨ a ∈ xs := by
  induction xs with
  | nil => intro i res h hl; rw [reservoir]; exact ⟨by simpa using h, hl, fun a ha => .inl ha⟩
  | cons x xs ih =>
    intro i res h hl
    rw [reservoir]
    split
    · rename_i hlt
      obtain ⟨h1, h2, h3⟩ := ih (i + 1) (res ++ [x]) (by simpa using h) (by simp; omega)
      refine ⟨h1, h2, fun a ha => ?_⟩
      rcases h3 a ha with h | h
      · rcases List.mem_append.1 h with h | h
        · exact .inl h
        · simp at h; exact .inr (by simp [h])
      · exact .inr (List.mem_cons_of_mem _ h)
    · dsimp only
      rw [List.nodup_append] at h
      obtain ⟨hr, hx, hd⟩ := h
      have hx' := (List.nodup_cons.1 hx)
      split
      · obtain ⟨h1, h2, h3⟩ := ih (i + 1) (res.set (σ i % (i + 1)) x) (by
          rw [List.nodup_append]
          refine ⟨List.Nodup.set hr (fun hm => hd _ hm _ (by simp) rfl), hx'.2, ?_⟩
          rintro a ha b hb rfl
          rcases List.mem_or_eq_of_mem_set ha with ha | rfl
          · exact hd _ ha _ (List.mem_cons_of_mem _ hb) rfl
          · exact hx'.1 hb) (by simpa using hl)
        refine ⟨h1, h2, fun a ha => ?_⟩
        rcases h3 a ha with h | h
        · rcases List.mem_or_eq_of_mem_set h with h | rfl
          · exact .inl h
          · exact .inr (by simp)
        · exact .inr (List.mem_cons_of_mem _ h)
      · obtain ⟨h1, h2, h3⟩ := ih (i + 1) res (by
          rw [List.nodup_append]
          exact ⟨hr, hx'.2, fun a ha b hb => hd a ha b (List.mem_cons_of_mem _ hb)⟩) hl
        refine ⟨h1, h2, fun a ha => ?_⟩
        rcases h3 a ha with h | h
        · exact .inl h
        · exact .inr (List.mem_cons_of_mem _ h)

theorem pickRandom_spec {T : Type} {pool : List T} {k : Nat} {σ : Nat → Nat} (h : pool.Nodup) :
    (pickRandom pool k σ).Nodup ∧ (pickRandom pool k σ).length ≤ k ∧ ∀ a ∈ pickRandom pool k σ, a ∈ pool := by
  obtain ⟨h1, h2, h3⟩ := reservoir_spec k σ pool 0 [] (by simpa using h) (Nat.zero_le _)
  exact ⟨h1, h2, fun a ha => by simpa using h3 a ha⟩

theorem reservoir_length {T : Type} (k : Nat) (σ : Nat → Nat) (xs : List T) :
    ∀ (i : Nat) (res : List T), res.length ≤ k →
      (reservoir k σ i xs res).length = min k (res.length + xs.length) := by
  induction xs with
  | nil => intro i res hl; rw [reservoir]; simp; omega
  | cons x xs ih =>
    intro i res hl
    rw [reservoir]
    split
    · rw [ih _ _ (by simp; omega)]; simp; omega
    · dsimp only
      split
      · rw [ih _ _ (by simpa using hl)]; simp; omega
      · rw [ih _ _ hl]; simp; omega

theorem pickRandom_length {T : Type} (pool : List T) (k : Nat) (σ : Nat → Nat) :
    (pickRandom pool k σ).length = min k pool.length := by
  unfold pickRandom
  rw [reservoir_length k σ pool 0 [] (Nat.zero_le _)]
  simp

theorem pickRandom_mem {T : Type} {pool : List T} {k : Nat} {σ : Nat → Nat} :
    ∀ a ∈ pickRandom pool k σ, a ∈ pool := by
  have key : ∀ (xs : List T) (i : Nat) (res : List T), ∀ a ∈ reservoir k σ i xs res, a ∈ res ∨ a ∈ xs := by
    intro xs
    induction xs with
    | nil => intro i res a ha; exact .inl ha
    | cons x xs ih =>
      intro i res a ha
      rw [reservoir] at ha
      split at ha
      · rcases ih _ _ a ha with h | h
        · rcases List.mem_append.1 h with h | h
          · exact .inl h
          · exact .inr (by rw [List.mem_singleton.1 h]; exact List.mem_cons_self ..)
        · exact .inr (List.mem_cons_of_mem _ h)
      · rcases ih _ _ a ha with h | h
        · split at h
          · rcases List.mem_or_eq_of_mem_set h with h | rfl
            · exact .inl h
            · exact .inr (List.mem_cons_self ..)
          · exact .inl h
        · exact .inr (List.mem_cons_of_mem _ h)
  intro a ha
  simpa using key pool 0 [] a ha

theorem askRelays_spec (msg : Message I A) (l : List A) (e : Ep I A) (as : List A) :
    (askRelays cfg env msg l e as).2 =
      as ++ (if fitsMtu cfg env msg then l else []) := by
  induction l generalizing e as with
  | nil => simp [askRelays]
  | cons a l ih =>
    simp only [askRelays]
    rw [ih]
    unfold pushWithinMtu
    split <;> simp

theorem askRelays_net (msg : Message I A) (l : List A) (e : Ep I A) (as : List A) :
    (askRelays cfg env msg l e as).1.net.probes = e.net.probes := by
  induction l generalizing e as with
  | nil => rfl
  | cons a l ih =>
    simp only [askRelays]
    rw [ih]
    unfold pushWithinMtu
    split <;> rfl

theorem askRelays_state (msg : Message I A) (l : List A) (e : Ep I A) (as : List A) :
    (askRelays cfg env msg l e as).1 = { e with net := { e.net with
      transmits := e.net.transmits ++ (if fitsMtu cfg env msg then l else []).map (fun a => .packet a msg) } } := by
  induction l generalizing e as with
  | nil => simp [askRelays]
  | cons a l ih =>
    simp only [askRelays]
    rw [ih]
    unfold pushWithinMtu
    split <;> simp [send, *]

theorem requestDial_same (e : Ep I A) (d : Option (DialIntent A)) :
    (e.requestDial d).net = e.net ∧ (e.requestDial d).core.members = e.core.members ∧
      (e.requestDial d).core.lifecycle = e.core.lifecycle := by
  unfold requestDial
  split <;> exact ⟨rfl, rfl, rfl⟩

theorem startReliablePing_probes (e : Ep I A) (id : I) (peer : A) (seq d : Nat) :
    (e.startReliablePing cfg env id peer seq d).1.net.probes = e.net.probes := by
  unfold startReliablePing
  dsimp only
  rw [(requestDial_same _ _).1]
  unfold startReliablePingDirect
  dsimp only
  split <;> rfl

theorem startFallback_probes (e : Ep I A) (p : Probe I A) (seq : Nat) :
    (e.startFallback cfg env p seq).1.net.probes = e.net.probes := by
  unfold startFallback
  split
  · rfl
  · exact startReliablePing_probes e _ _ _ _

theorem startReliablePing_members (e : Ep I A) (id : I) (peer : A) (seq d : Nat) :
    (e.startReliablePing cfg env id peer seq d).1.core.members = e.core.members ∧
      (e.startReliablePing cfg env id peer seq d).1.core.lifecycle = e.core.lifecycle := by
  unfold startReliablePing
  dsimp only
  rw [(requestDial_same _ _).2.1, (requestDial_same _ _).2.2, startReliablePingDirect_core]
  exact ⟨rfl, rfl⟩

theorem startFallback_members (e : Ep I A) (p : Probe I A) (seq : Nat) :
    (e.startFallback cfg env p seq).1.core.members = e.core.members ∧
      (e.startFallback cfg env p seq).1.core.lifecycle = e.core.lifecycle := by
  unfold startFallback
  split
  · exact ⟨rfl, rfl⟩
  · exact startReliablePing_members e _ _ _ _

theorem startFallback_micros (e : Ep I A) (p : Probe I A) (seq now : Nat) (ho : op = .timeout now)
    (hp : e.net.probes.get? seq = some p) (hk : p.kind = .detection) :
    Micros cfg env op late e (e.startFallback cfg env p seq).1 := by
  unfold startFallback
  split
  · exact .refl
  · rename_i hd
    exact startReliablePing_micros e _ _ _ _ (.inr (.inr ⟨now, p, ho, hp, hk, rfl, rfl, rfl, hd⟩))

theorem startFallback_spec (e : Ep I A) (p : Probe I A) (seq : Nat) (hr : e.core.lifecycle = .running) :
    FallbackOf (e.startFallback cfg env p seq).1 seq p (e.startFallback cfg env p seq).2 := by
  unfold startFallback
  split
  · rename_i hd
    exact ⟨⟨fun _ => hd, fun _ => rfl⟩, fun rid h => by cases h⟩
  · rename_i hd
    have hr' : (!e.isRunning) = false := by simp [isRunning, hr]
    unfold startReliablePing startReliablePingDirect
    dsimp only
    rw [if_neg (by simp [isRunning, hr])]
    refine ⟨⟨nofun, fun h => absurd h hd⟩, fun rid h => ?_⟩
    cases h
    refine ⟨rfl, { peer := p.target.addr, kind := .reliablePing seq, deadline := p.failureDeadline,
                    encoded := encodeBytes env (.ping { seq, source := localNode cfg,
                                                        target := { id := p.target.id, addr := p.target.addr } }) },
      ?_, rfl, rfl, rfl⟩
    show (Map.insert e.net.intents e.net.nextStreamId _).get? e.net.nextStreamId = _
    rw [Map.get?_insert, if_pos rfl]

theorem discardProbe_probes (n : Net I A) (seq : Nat) (p : Probe I A) :
    (discardProbe n seq p).probes = n.probes.erase seq := by
  unfold discardProbe
  dsimp only
  split <;> rfl

theorem terminate_probes (e : Ep I A) (seq now : Nat) :
    (e.probeTerminateFailure cfg env seq now).net.probes = e.net.probes.erase seq ∨
      (e.net.probes.get? seq = none ∧ e.probeTerminateFailure cfg env seq now = e) := by
  unfold probeTerminateFailure
  split
  · rename_i h; exact .inr ⟨h, rfl⟩
  · left
    dsimp only
    rw [← discardProbe_probes]
    (repeat' split) <;> rfl

theorem terminate_other (e : Ep I A) (seq now s : Nat) (h : s ≠ seq) :
    (e.probeTerminateFailure cfg env seq now).net.probes.get? s = e.net.probes.get? s := by
  rcases terminate_probes (cfg := cfg) (env := env) e seq now with h' | ⟨_, h'⟩
  · rw [h', Map.get?_erase, if_neg (Ne.symm h)]
  · rw [h']

theorem fanOut_other (e : Ep I A) (seq now s : Nat) (h : s ≠ seq) :
    (e.fanOut cfg env seq now).net.probes.get? s = e.net.probes.get? s := by
  unfold fanOut
  split
  · rfl
  · dsimp only
    split
    · exact terminate_other e.tickUp seq now s h
    · unfold fanOutTo
      dsimp only
      split
      · rw [terminate_other _ _ _ _ h, askRelays_net, startFallback_probes]; rfl
      · dsimp only
        rw [Map.get?_modify, if_neg (Ne.symm h), askRelays_net, startFallback_probes]; rfl

theorem terminate_lifecycle (e : Ep I A) (seq now : Nat) :
    (e.probeTerminateFailure cfg env seq now).core.lifecycle = e.core.lifecycle := by
  unfold probeTerminateFailure
  split
  · rfl
  · dsimp only
    split
    · split
      · rfl
      · dsimp only
        split
        · exact processSuspect_lifecycle _ _ _
        · rfl
    · rfl

theorem fanOut_lifecycle (e : Ep I A) (seq now : Nat) :
    (e.fanOut cfg env seq now).core.lifecycle = e.core.lifecycle := by
  unfold fanOut
  split
  · rfl
  · dsimp only
    split
    · exact terminate_lifecycle _ _ _
    · unfold fanOutTo
      dsimp only
      split
      · rw [terminate_lifecycle, askRelays_core, (startFallback_members _ _ _).2]; rfl
      · dsimp only
        rw [askRelays_core, (startFallback_members _ _ _).2]; rfl

theorem fanOut_micros (e : Ep I A) (seq now : Nat) (p : Probe I A) (ho : op = .timeout now)
    (hr : e.core.lifecycle = .running)
    (hp : e.net.probes.get? seq = some p) (hd : probeDue cfg p now = some true) (hlate : late = false) :
    Micros cfg env op late e (e.fanOut cfg env seq now) := by
  have hdue : p.kind = .detection ∧ (∃ d, p.phase = .direct d) ∧ p.sentAt + cfg.probeTimeout ≤ now ∧
      now < p.failureDeadline := by
    unfold probeDue at hd
    cases hph : p.phase with
    | direct d =>
      rw [hph] at hd
      dsimp only at hd
      split at hd
      · cases hd
      · rename_i hf
        split at hd
        · rename_i hs
          cases hk : p.kind with
          | detection => exact ⟨rfl, ⟨d, rfl⟩, hs, by omega⟩
          | ping => rw [hk] at hd; cases hd
        · cases hd
    | indirect ex ps nb st d =>
      rw [hph] at hd
      dsimp only at hd
      split at hd <;> cases hd
  obtain ⟨hk, hph, hs, hf⟩ := hdue
  unfold fanOut
  rw [hp]
  dsimp only
  rw [if_neg (by omega)]
  refine Micros.trans (micros_aux (e := e) (e' := e.tickUp) rfl rfl rfl) ?_
  refine (startFallback_micros e.tickUp p seq now ho hp hk).trans ?_
  unfold fanOutTo
  dsimp only
  have hp' : (e.tickUp.startFallback cfg env p seq).1.net.probes.get? seq = some p := by
    rw [startFallback_probes]; exact hp
  have hl' : (e.tickUp.startFallback cfg env p seq).1.core.lifecycle = .running := by
    rw [(startFallback_members _ _ _).2]; exact hr
  have hm' : (e.tickUp.startFallback cfg env p seq).1.core.members = e.core.members := (startFallback_members _ _ _).1
  have spec := pickRandom_spec (k := cfg.indirectChecks) (σ := env.tape e.tick)
      (relayCandidates_nodup e.core.members cfg.advertise p.target.addr)
  have hlen := pickRandom_length (relayCandidates e.core.members cfg.advertise p.target.addr) cfg.indirectChecks
    (env.tape e.tick)
  generalize pickRandom (relayCandidates e.core.members cfg.advertise p.target.addr) cfg.indirectChecks (env.tape e.tick) = chosen at spec hlen
  have hfb := startFallback_spec (cfg := cfg) (env := env) e.tickUp p seq hr
  generalize (e.tickUp.startFallback cfg env p seq).2 = stream at hfb
  generalize (e.tickUp.startFallback cfg env p seq).1 = e1 at hp' hl' hm' hfb
  have hreq : (.indirectPing { seq, source := localNode cfg, target := { id := p.target.id, addr := p.target.addr } } :
    Message I A) = relayRequest cfg seq p := rfl
  rw [hreq, askRelays_state, askRelays_spec, List.nil_append]
  generalize hpeers : (if fitsMtu cfg env (relayRequest cfg seq p) then chosen else []) = peers
  have hsub : peers.length ≤ cfg.indirectChecks ∧ peers.Nodup ∧
      (∀ a ∈ peers, a ∈ relayCandidates e.core.members cfg.advertise p.target.addr) ∧
      (peers ≠ [] → fitsMtu cfg env (relayRequest cfg seq p) = true) ∧
      (fitsMtu cfg env (relayRequest cfg seq p) = true →
        peers.length = min cfg.indirectChecks (relayCandidates e.core.members cfg.advertise p.target.addr).length) := by
    split at hpeers
    · rename_i hfit
      subst hpeers
      exact ⟨spec.2.1, spec.1, spec.2.2, fun _ => hfit, fun _ => hlen⟩
    · rename_i hfit
      subst hpeers
      exact ⟨Nat.zero_le _, List.nodup_nil, fun a ha => (by simp at ha), fun h => absurd rfl h, fun h => absurd h hfit⟩
  split
  · rename_i hc
    simp only [Bool.and_eq_true, List.isEmpty_iff] at hc
    rw [hc.1]
    simp only [List.map_nil, List.append_nil]
    refine .of (.fail _ seq p now hp' ⟨by rw [ho]; rfl, .inr ⟨ho, hs, hph⟩⟩ hl' hlate (fun _ _ => ⟨?_, fun hfit => ?_⟩))
    · exact hfb.1.1 (by simpa using hc.2)
    · have := hsub.2.2.2.2 hfit
      rw [hc.1] at this
      rw [hm']
      exact this.symm
  · rename_i hc
    refine .of (.fan e1 seq p now peers stream ho hp' hk hph hs hf hsub.1 hsub.2.1 (by rw [hm']; exact hsub.2.2.1)
      hsub.2.2.2.1 hlate (by rw [hm']; exact hsub.2.2.2.2) hfb (fun h1 h2 => hc ?_))
    simp [h1, h2]

theorem due_false {p : Probe I A} {now : Nat} (h : probeDue cfg p now = some false) :
    p.failureDeadline ≤ now ∨ (p.sentAt + cfg.probeTimeout ≤ now ∧ (∃ d, p.phase = .direct d) ∧ p.kind = .ping) := by
  unfold probeDue at h
  cases hph : p.phase with
  | direct d =>
    rw [hph] at h
    dsimp only at h
    split at h
    · rename_i h1; exact .inl h1
    · split at h
      · rename_i h2
        cases hk : p.kind with
        | detection => rw [hk] at h; cases h
        | ping => exact .inr ⟨h2, ⟨d, rfl⟩, rfl⟩
      · cases h
  | indirect ex ps nb st d =>
    rw [hph] at h
    dsimp only at h
    split at h
    · rename_i h1; exact .inl h1
    · cases h


/-- Folding over distinct keys a function that touches only its own entry of a table. -/
theorem micros_keyed {β : Type} (g : Ep I A → Nat → Option β) (f : Ep I A → Nat → Ep I A) (g0 : Nat → Option β)
    (hother : ∀ e s s', s' ≠ s → g (f e s) s' = g e s')
    (hrun : ∀ e s, (f e s).core.lifecycle = e.core.lifecycle)
    (l : List Nat) (hnd : l.Nodup)
    (h : ∀ e s, s ∈ l → e.core.lifecycle = .running → g e s = g0 s → Micros cfg env op late e (f e s))
    (e : Ep I A) (hr : e.core.lifecycle = .running) (he : ∀ s ∈ l, g e s = g0 s) :
    Micros cfg env op late e (l.foldl f e) ∧ (l.foldl f e).core.lifecycle = .running ∧
      ∀ s, s ∉ l → g (l.foldl f e) s = g e s := by
  induction l generalizing e with
  | nil => exact ⟨.refl, hr, fun _ _ => rfl⟩
  | cons x l ih =>
    obtain ⟨hx, hnd⟩ := List.nodup_cons.1 hnd
    obtain ⟨h1, h2, h3⟩ := ih hnd (fun e s hs => h e s (List.mem_cons_of_mem _ hs)) (f e x)
      (by rw [hrun]; exact hr)
      (fun s hs => by rw [hother e x s (by rintro rfl; exact hx hs)]; exact he s (List.mem_cons_of_mem _ hs))
    refine ⟨(h e x (by simp) hr (he x (by simp))).trans h1, h2, fun s hs => ?_⟩
    simp only [List.mem_cons, not_or] at hs
    rw [List.foldl_cons, h3 s hs.2, hother e x s hs.1]

theorem advanceProbes_micros (e : Ep I A) (now : Nat) (ho : op = .timeout now)
    (hr : e.core.lifecycle = .running) (hn : e.net.probes.NodupKeys) (hlate : late = false) :
    Micros cfg env op late e (e.advanceProbes cfg env now) ∧
      (e.advanceProbes cfg env now).core.lifecycle = .running := by
  unfold advanceProbes
  dsimp only
  have hk : (env.order e.tick (e.net.probes.map Prod.fst)).Nodup :=
    (env.order_perm _ _).nodup_iff.2 hn
  generalize env.order e.tick (e.net.probes.map Prod.fst) = keys at hk
  have h1 := micros_keyed (cfg := cfg) (env := env) (op := op) (fun e s => e.net.probes.get? s)
    (fun e s => e.fanOut cfg env s now) (fun s => e.net.probes.get? s)
    (fun e s s' h => fanOut_other e s now s' h) (fun e s => fanOut_lifecycle e s now)
    (keys.filter (fun s => match e.net.probes.get? s with
      | some p => probeDue cfg p now == some true
      | none => false)) (hk.filter _)
    (fun e' s hs hr' he' => by
      simp only [List.mem_filter] at hs
      cases hp : e.net.probes.get? s with
      | none => rw [hp] at hs; simp at hs
      | some p =>
        rw [hp] at hs he'
        exact fanOut_micros e' s now p ho hr' he' (by simpa using hs.2) hlate)
    e.tickUp hr (fun s _ => rfl)
  have h2 := micros_keyed (cfg := cfg) (env := env) (op := op) (fun e s => e.net.probes.get? s)
    (fun e s => e.probeTerminateFailure cfg env s now) (fun s => e.net.probes.get? s)
    (fun e s s' h => terminate_other e s now s' h) (fun e s => terminate_lifecycle e s now)
    (keys.filter (fun s => match e.net.probes.get? s with
      | some p => probeDue cfg p now == some false
      | none => false)) (hk.filter _)
    (fun e' s hs hr' he' => by
      simp only [List.mem_filter] at hs
      cases hp : e.net.probes.get? s with
      | none => rw [hp] at hs; simp at hs
      | some p =>
        rw [hp] at hs he'
        have hdf := due_false (cfg := cfg) (p := p) (now := now) (by simpa using hs.2)
        refine .of (.fail e' s p now he' ⟨by rw [ho]; rfl, ?_⟩ hr' hlate ?_)
        · rcases hdf with h | h
          · exact .inl h
          · exact .inr ⟨ho, h.1, h.2.1⟩
        · intro h1 h2
          rcases hdf with h | h
          · omega
          · rw [h.2.2] at h2; cases h2)
    _ h1.2.1 (fun s hs => by
      refine h1.2.2 s ?_
      intro hs'
      simp only [List.mem_filter] at hs hs'
      cases hp : e.net.probes.get? s with
      | none => rw [hp] at hs; simp at hs
      | some p =>
        rw [hp] at hs hs'
        have a := hs.2; have b := hs'.2
        simp only [beq_iff_eq] at a b
        rw [a] at b; cases b)
  exact ⟨(micros_aux (e := e) (e' := e.tickUp) rfl rfl rfl).trans (h1.1.trans h2.1), h2.2.1⟩

/-- The body of the loop of `fireExpiredForwards`. -/
def expireForward (e : Ep I A) (seq : Nat) : Ep I A :=
  match e.net.forwards.get? seq with
  | none => e
  | some f =>
    send { e with net := { e.net with
      forwards := e.net.forwards.erase seq, acks := e.net.acks.erase seq } }
      (.packet f.replyTo (.nack f.requesterSeq))

theorem fireExpiredForwards_eq (e : Ep I A) (now : Nat) :
    e.fireExpiredForwards env now = (env.order e.tick
      ((e.net.forwards.filter (fun f => f.2.deadline ≤ now)).map Prod.fst)).foldl expireForward e.tickUp := rfl

theorem filter_keys_nodup {K V : Type} [DecidableEq K] {m : Map K V} (h : m.NodupKeys) (f : K × V → Bool) :
    ((m.filter f).map Prod.fst).Nodup := h.sublist (List.filter_sublist.map _)

theorem mem_filter_keys {K V : Type} [DecidableEq K] {m : Map K V} (h : m.NodupKeys) {f : K × V → Bool} {k : K} :
    k ∈ (m.filter f).map Prod.fst ↔ ∃ v, m.get? k = some v ∧ f (k, v) = true := by
  simp only [List.mem_map, List.mem_filter, Prod.exists]
  constructor
  · rintro ⟨a, v, ⟨hm, hf⟩, rfl⟩; exact ⟨v, Map.get?_of_mem h hm, hf⟩
  · rintro ⟨v, hv, hf⟩; exact ⟨k, v, ⟨Map.mem_of_get? hv, hf⟩, rfl⟩

theorem fireExpiredForwards_micros (e : Ep I A) (now : Nat) (ho : op = .timeout now)
    (hr : e.core.lifecycle = .running) (hn : e.net.forwards.NodupKeys) :
    Micros cfg env op late e (e.fireExpiredForwards env now) := by
  rw [fireExpiredForwards_eq]
  refine (micros_aux (e := e) (e' := e.tickUp) rfl rfl rfl).trans ?_
  refine (micros_keyed (fun e s => e.net.forwards.get? s) expireForward (fun s => e.net.forwards.get? s)
    ?_ ?_ _ ((env.order_perm _ _).nodup_iff.2 (filter_keys_nodup hn _)) ?_ e.tickUp hr (fun _ _ => rfl)).1
  · intro e s s' h
    unfold expireForward
    split
    · rfl
    · simp only [send]
      rw [Map.get?_erase, if_neg (Ne.symm h)]
  · intro e s
    unfold expireForward
    split <;> rfl
  · intro e' s hs _ he'
    rw [(env.order_perm _ _).mem_iff, mem_filter_keys hn] at hs
    obtain ⟨f, hf, hd⟩ := hs
    rw [hf] at he'
    unfold expireForward
    rw [he']
    dsimp only
    exact .of (.fwdExpire e' s f he' now ho (by simpa using hd))

omit [DecidableEq I] [DecidableEq A] in
theorem dropIntent_erase (n : Net I A) (id : Nat) : (dropIntent n id).intents = n.intents.erase id := by
  unfold dropIntent
  split
  · rename_i h
    rw [Map.get?_eq_none_iff] at h
    refine (List.filter_eq_self.2 ?_).symm
    intro x hx
    simp only [decide_eq_true_eq, ne_eq]
    intro hc
    exact h (List.mem_map.2 ⟨x, hx, hc⟩)
  · dsimp only
    split <;> rfl

theorem fireExpiredIntents_micros (e : Ep I A) (now : Nat) (ho : op = .timeout now) :
    Micros cfg env op late e (e.fireExpiredIntents env now) := by
  unfold fireExpiredIntents
  dsimp only
  refine (micros_aux (e := e) (e' := e.tickUp) rfl rfl rfl).trans ?_
  have hk : ∀ id ∈ env.order e.tick ((e.net.intents.filter (fun i => now ≥ i.2.deadline)).map Prod.fst),
      ∃ i, (id, i) ∈ e.net.intents ∧ i.deadline ≤ now := by
    intro id hid
    rw [(env.order_perm _ _).mem_iff, List.mem_map] at hid
    obtain ⟨⟨k, i⟩, hm, rfl⟩ := hid
    rw [List.mem_filter] at hm
    exact ⟨i, hm.1, by simpa using hm.2⟩
  generalize env.order e.tick ((e.net.intents.filter (fun i => now ≥ i.2.deadline)).map Prod.fst) = keys at hk
  have hI : ∀ k i, (k, i) ∈ e.net.intents → e.tickUp.net.intents.get? k = none ∨ (k, i) ∈ e.tickUp.net.intents :=
    fun k i h => .inr h
  generalize e.tickUp = e' at hI
  induction keys generalizing e' with
  | nil => exact .refl
  | cons id keys ih =>
    rw [List.foldl_cons]
    refine (dropIntent_micros e' id (fun j hj => ?_)).trans (ih (fun k h => hk k (List.mem_cons_of_mem _ h)) _ ?_)
    · obtain ⟨i, h1, h2⟩ := hk id (by simp)
      rcases hI id i h1 with h | h
      · rw [h] at hj; cases hj
      · exact .inr (.inr ⟨now, i, ho, h, h2⟩)
    · intro k i h
      show (dropIntent e'.net id).intents.get? k = none ∨ (k, i) ∈ (dropIntent e'.net id).intents
      rw [dropIntent_erase, Map.get?_erase]
      split
      · exact .inl rfl
      · rename_i hne
        rcases hI k i h with h | h
        · exact .inl h
        · exact .inr (List.mem_filter.2 ⟨h, by simpa using fun hc => hne hc.symm⟩)

theorem resetNodes_micros (e : Ep I A) (now : Nat) (h : ∀ pick, CoreOf cfg env op (.reset pick now)) :
    Micros cfg env op late e (e.resetNodes cfg env now) :=
  micros_core (Acts.one (.reset _ now) (h _) rfl) rfl rfl

omit [DecidableEq I] [DecidableEq A] in
theorem pushWithinMtu_other (e : Ep I A) (a : A) (m : Message I A) :
    other (e.pushWithinMtu cfg env a m).1 = other e := by
  unfold pushWithinMtu
  split <;> rfl

omit [DecidableEq A] in
theorem startProbe_other (e : Ep I A) (now : Nat) : other (e.startProbe cfg env now).1 = other e := by
  have h : ∀ (e : Ep I A) m seq, other (e.sendProbe cfg env m seq).1 = other e := by
    intro e m seq
    unfold sendProbe
    dsimp only
    split
    · split
      · rfl
      · rw [pushWithinMtu_other, pushWithinMtu_other]
    · exact pushWithinMtu_other ..
  unfold startProbe
  split
  · rfl
  · split
    · rfl
    · dsimp only
      split
      · rfl
      · exact (h _ _ _).trans rfl

omit [DecidableEq I] [DecidableEq A] in
theorem startPushPull_other (e : Ep I A) (peer : A) (k : PushPullKind) (now : Nat) :
    other (e.startPushPull cfg env peer k now).1 = other e := by
  unfold startPushPull startPushPullDirect
  dsimp only
  split <;> rfl

omit [DecidableEq I] [DecidableEq A] in
theorem sendAll_other (l : List A) (ms : List (Message I A)) (e : Ep I A) : other (e.sendAll l ms) = other e := by
  unfold sendAll
  induction l generalizing e with
  | nil => rfl
  | cons a l ih =>
    rw [List.foldl_cons, ih]
    split <;> rfl

omit [DecidableEq A] in
theorem drainGossip_other (e : Ep I A) : other (e.drainGossip cfg env).1 = other e := by
  unfold drainGossip drainUser
  dsimp only
  (repeat' split) <;> rfl

theorem fireProbeScheduler_micros (e : Ep I A) (now : Nat) (ho : op = .timeout now) (hlate : late = true) :
    Micros cfg env op late e (e.fireProbeScheduler cfg env now) := by
  unfold fireProbeScheduler
  split
  · exact .refl
  · rename_i d hd
    split
    · exact .refl
    · dsimp only
      generalize hx : (if e.core.members.length > 0 ∧ e.probesSinceReset + 1 ≥ e.core.members.length then
        { ({ e with probesSinceReset := e.probesSinceReset + 1 } : Ep I A).resetNodes cfg env now with probesSinceReset := 0 }
        else { e with probesSinceReset := e.probesSinceReset + 1 } : Ep I A) = x
      have hxo : other x = other e := by rw [← hx]; split <;> rfl
      refine Micros.trans (b := x) ?_ (Micros.trans (startProbe_micros _ now (.inr ho) hlate)
        (micros_aux rfl rfl rfl rfl (.probeAt ?_)))
      · rw [← hx]
        split
        · refine Micros.trans (micros_aux (e := e) (e' := { e with probesSinceReset := e.probesSinceReset + 1 }) rfl rfl rfl) ?_
          exact (resetNodes_micros _ now (fun pick => by rw [ho]; exact .reset ..)).trans (micros_aux rfl rfl rfl)
        · exact micros_aux rfl rfl rfl
      · have h := congrArg (·.1) ((startProbe_other (cfg := cfg) (env := env) x now).trans hxo)
        simp only [other] at h
        rw [h, hd]; rfl

theorem fireProbeScheduler_lifecycle (e : Ep I A) (now : Nat) :
    (e.fireProbeScheduler cfg env now).core.lifecycle = e.core.lifecycle := by
  unfold fireProbeScheduler
  split
  · rfl
  · split
    · rfl
    · dsimp only
      rw [startProbe_core]
      split
      · exact resetNodes_lifecycle _ _ _
      · rfl

theorem fireGossipScheduler_micros (e : Ep I A) (now : Nat) (ho : op = .timeout now)
    (hr : e.core.lifecycle = .running) (hlate : late = true) :
    Micros cfg env op late e (e.fireGossipScheduler cfg env now) := by
  unfold fireGossipScheduler
  split
  · exact .refl
  · rename_i d hd
    split
    · exact .refl
    · dsimp only
      refine Micros.trans (micros_aux (e := e) (e' := e.tickUp) rfl rfl rfl) ?_
      split
      · refine micros_aux rfl rfl rfl rfl (.gossipAt ?_)
        show e.nextGossip.isSome = true
        rw [hd]; rfl
      · refine Micros.trans (.of (.gossip e.tickUp _ now ho hr hlate)) (micros_aux rfl rfl rfl rfl (.gossipAt ?_))
        have h := fun l ms =>
          congrArg (·.2.1) ((sendAll_other l ms _).trans (drainGossip_other (cfg := cfg) (env := env) e.tickUp))
        simp only [other] at h
        rw [h]
        show e.nextGossip.isSome = true
        rw [hd]; rfl

theorem firePushPullScheduler_micros (e : Ep I A) (now : Nat) (ho : op = .timeout now) :
    Micros cfg env op late e (e.firePushPullScheduler cfg env now) := by
  unfold firePushPullScheduler
  split
  · exact .refl
  · rename_i d hd
    split
    · exact .refl
    · dsimp only
      refine Micros.trans (micros_aux (e := e) (e' := e.tickUp) rfl rfl rfl) ?_
      split
      · refine micros_aux rfl rfl rfl rfl (.pushAt ?_)
        show e.nextPushPull.isSome = true
        rw [hd]; rfl
      · rename_i peer rest hpk
        have hmem : peer ∈ livePeers cfg e.core.members :=
          pickRandom_mem (k := 1) (σ := env.tape e.tick) peer (by rw [hpk]; exact List.mem_cons_self ..)
        refine (startPushPull_micros e.tickUp _ _ _ (.inr (.inr ⟨ho, rfl, hmem⟩))).trans (micros_aux rfl rfl rfl rfl (.pushAt ?_))
        have h := congrArg (·.2.2.1) (startPushPull_other (cfg := cfg) (env := env) e.tickUp ‹_› .refresh now)
        simp only [other] at h
        rw [h]
        show e.nextPushPull.isSome = true
        rw [hd]; rfl

theorem refreshCache_micros (e : Ep I A) (ho : (∃ now, op = .timeout now) ∨ op = .setResponseCompression) :
    Micros cfg env op late e e.refreshCache := by
  unfold refreshCache
  split
  · exact .refl
  · exact micros_aux rfl rfl rfl rfl ⟨.inl, .inl, .inl, .inr ⟨rfl, rfl, rfl, ho⟩⟩

theorem terminate_forwards (e : Ep I A) (seq now : Nat) :
    (e.probeTerminateFailure cfg env seq now).net.forwards = e.net.forwards := by
  have h : ∀ (n : Net I A) (p : Probe I A), (discardProbe n seq p).forwards = n.forwards := by
    intro n p; unfold discardProbe; dsimp only; split <;> rfl
  unfold probeTerminateFailure
  split
  · rfl
  · dsimp only
    (repeat' split) <;> exact h _ _

theorem askRelays_forwards (msg : Message I A) (l : List A) (e : Ep I A) (as : List A) :
    (askRelays cfg env msg l e as).1.net.forwards = e.net.forwards := by
  induction l generalizing e as with
  | nil => rfl
  | cons a l ih =>
    simp only [askRelays]
    rw [ih]
    unfold pushWithinMtu
    split <;> rfl

theorem startFallback_forwards (e : Ep I A) (p : Probe I A) (seq : Nat) :
    (e.startFallback cfg env p seq).1.net.forwards = e.net.forwards := by
  unfold startFallback
  split
  · rfl
  · unfold startReliablePing
    dsimp only
    rw [(requestDial_same _ _).1]
    unfold startReliablePingDirect
    dsimp only
    split <;> rfl

theorem fanOut_forwards (e : Ep I A) (seq now : Nat) :
    (e.fanOut cfg env seq now).net.forwards = e.net.forwards := by
  unfold fanOut
  split
  · rfl
  · dsimp only
    split
    · exact terminate_forwards _ _ _
    · unfold fanOutTo
      dsimp only
      split
      · rw [terminate_forwards, askRelays_forwards, startFallback_forwards]; rfl
      · dsimp only
        rw [askRelays_forwards, startFallback_forwards]; rfl

theorem advanceProbes_forwards (e : Ep I A) (now : Nat) :
    (e.advanceProbes cfg env now).net.forwards = e.net.forwards := by
  unfold advanceProbes
  dsimp only
  have h1 : ∀ (l : List Nat) (e : Ep I A), (l.foldl (fun e s => e.fanOut cfg env s now) e).net.forwards = e.net.forwards := by
    intro l; induction l with
    | nil => intro e; rfl
    | cons x l ih => intro e; rw [List.foldl_cons, ih, fanOut_forwards]
  have h2 : ∀ (l : List Nat) (e : Ep I A), (l.foldl (fun e s => e.probeTerminateFailure cfg env s now) e).net.forwards = e.net.forwards := by
    intro l; induction l with
    | nil => intro e; rfl
    | cons x l ih => intro e; rw [List.foldl_cons, ih, terminate_forwards]
  rw [h2, h1]; rfl

/-- The first part of `handle_timeout`: what ended. -/
def timeoutEnds (cfg : Cfg I A) (env : Env I A) (e : Ep I A) (now : Nat) : Ep I A :=
  ((({ e with core := e.core.fireExpiredSuspicions cfg env now } : Ep I A).advanceProbes cfg env now).fireExpiredForwards
    env now).fireExpiredIntents env now

/-- The second part of `handle_timeout`: the schedulers. -/
def timeoutStarts (cfg : Cfg I A) (env : Env I A) (e : Ep I A) (now : Nat) : Ep I A :=
  (((e.fireProbeScheduler cfg env now).fireGossipScheduler cfg env now).firePushPullScheduler cfg env now).refreshCache

theorem handleTimeout_eq (e : Ep I A) (now : Nat) (hl : e.core.lifecycle = .running) :
    e.handleTimeout cfg env now = timeoutStarts cfg env (timeoutEnds cfg env e now) now := by
  unfold handleTimeout
  rw [if_neg (by simp [hl])]
  rfl

/-- The first part after suspicions have expired. -/
theorem timeoutEnds_tail (e : Ep I A) (now : Nat) (ho : op = .timeout now) (hl : e.core.lifecycle = .running)
    (hp : e.net.probes.NodupKeys) (hf : e.net.forwards.NodupKeys) :
    Micros cfg env op false { e with core := e.core.fireExpiredSuspicions cfg env now } (timeoutEnds cfg env e now) ∧
      (timeoutEnds cfg env e now).core.lifecycle = .running := by
  have r0 : (e.core.fireExpiredSuspicions cfg env now).lifecycle = .running := by
    rw [fireExpired_lifecycle _ (by simp [hl])]; exact hl
  have h1 := advanceProbes_micros (cfg := cfg) (env := env) (late := false)
    { e with core := e.core.fireExpiredSuspicions cfg env now } now ho r0 hp rfl
  have h2 := fireExpiredForwards_micros (cfg := cfg) (env := env) (late := false)
    (({ e with core := e.core.fireExpiredSuspicions cfg env now } : Ep I A).advanceProbes cfg env now) now ho h1.2
    (by rw [advanceProbes_forwards]; exact hf)
  refine ⟨h1.1.trans (h2.trans (fireExpiredIntents_micros _ now ho)), ?_⟩
  unfold timeoutEnds
  rw [fireExpiredIntents_core, fireExpiredForwards_core]
  exact h1.2

theorem timeoutEnds_micros (e : Ep I A) (now : Nat) (ho : op = .timeout now) (hl : e.core.lifecycle = .running)
    (hp : e.net.probes.NodupKeys) (hf : e.net.forwards.NodupKeys) :
    Micros cfg env op false e (timeoutEnds cfg env e now) ∧ (timeoutEnds cfg env e now).core.lifecycle = .running := by
  have h0 : Micros cfg env op false e { e with core := e.core.fireExpiredSuspicions cfg env now } := by
    refine micros_core (Acts.one (.expire now) (by rw [ho]; exact .expire now) ?_) rfl rfl
    simp only [act, hl, if_true]
  have h1 := timeoutEnds_tail (cfg := cfg) (env := env) e now ho hl hp hf
  exact ⟨h0.trans h1.1, h1.2⟩

theorem timeoutStarts_micros (e : Ep I A) (now : Nat) (ho : op = .timeout now) (hl : e.core.lifecycle = .running) :
    Micros cfg env op true e (timeoutStarts cfg env e now) := by
  refine (fireProbeScheduler_micros _ now ho rfl).trans ?_
  refine Micros.trans (fireGossipScheduler_micros _ now ho ?_ rfl) ?_
  · rw [fireProbeScheduler_lifecycle]; exact hl
  · exact (firePushPullScheduler_micros _ now ho).trans (refreshCache_micros _ (.inl ⟨now, ho⟩))

/-! ### Claims -/

theorem processAlive_micros (e : Ep I A) (a : Alive I A) (now : Nat)
    (h : ∀ tk off, CoreOf cfg env op (.alive a (env.aliveOk tk (nodeOf a .alive)) off now)) :
    Micros cfg env op late e (e.processAlive cfg env a now) :=
  micros_core (processAlive_acts e a now h) rfl rfl

theorem merges_coreOf {op : Op I A} {now : Nat} (hn : op.time? = some now) {r : PushNodeState I A}
    (hr : r ∈ op.remote) : Merges cfg env (CoreOf cfg env op) r now where
  alive hs tk off := .remoteAlive r tk off hn hr hs
  bad hs := .remoteBad r hn hr hs
  left hs := .remoteLeft r hn hr hs

theorem mergeOne_net (e : Ep I A) (now : Nat) (r : PushNodeState I A) :
    (e.mergeOne cfg env now r).net = e.net ∧ (e.mergeOne cfg env now r).leaveFlush = e.leaveFlush ∧
      (e.mergeOne cfg env now r).user = e.user := by
  unfold mergeOne
  split <;> exact ⟨rfl, rfl, rfl⟩

theorem mergeState_micros (e : Ep I A) (remote : List (PushNodeState I A)) (now : Nat)
    (h : ∀ r ∈ remote, Merges cfg env (CoreOf cfg env op) r now) :
    Micros cfg env op late e (e.mergeState cfg env remote now) :=
  micros_foldl _ _ (fun e r hr =>
    micros_core (mergeOne_acts e now r (h r hr)) (mergeOne_net e now r).1 (mergeOne_net e now r).2.1 (mergeOne_net e now r).2.2
      (.same (by unfold mergeOne; split <;> rfl))) e

theorem emit_micros (e : Ep I A) {ev : Event I A} (h : ev.isMembership = false) (hq : quietEv ev = true) :
    Micros cfg env op late e (e.emit ev) := by
  refine micros_core (Acts.one (.push ev) (.push ev h hq) ?_) rfl rfl
  simp only [act, emit, Core.emit, h, Bool.false_eq_true, if_false]

theorem mergeRemote_micros (e : Ep I A) (peer : A) (states : List (PushNodeState I A)) (ud : Bytes)
    (kind : PushPullKind) (stream now : Nat) (h : ∀ r ∈ states, Merges cfg env (CoreOf cfg env op) r now) :
    Micros cfg env op late e (e.mergeRemote cfg env peer states ud kind stream now) := by
  unfold mergeRemote
  dsimp only
  split
  · exact mergeState_micros e states now h
  · exact (mergeState_micros e states now h).trans (emit_micros _ rfl rfl)

/-- The calls that start no probe. -/
theorem step_micros_ends (e : Ep I A) (op : Op I A) (ht : Tables e.net) (h1 : ∀ now, op ≠ .timeout now)
    (h2 : ∀ node now, op ≠ .ping node now) (h3 : ∀ now, op ≠ .startProbe now) :
    Micros cfg env op false e (e.step cfg env op).1 := by
  cases op with
  | packet src msg now =>
    simp only [step]
    unfold handlePacket
    split
    · exact .refl
    · rename_i hl
      simp only [ne_eq, Decidable.not_not] at hl
      cases msg with
      | ping p => exact handlePing_micros _ _ _ now rfl
      | indirectPing p => exact handleIndirectPing_micros _ _ _ _ rfl
      | ack seq payload => exact handleAck_micros _ _ _ _ _ hl rfl ht rfl
      | nack seq => exact .of (.nack _ _ _ _ rfl)
      | suspect s => exact micros_core (Acts.one (.suspect s now) (.suspect _ _ _) rfl) rfl rfl
      | alive a => exact processAlive_micros _ _ _ (fun tk off => .alive _ _ _ _ _)
      | dead d => exact micros_core (Acts.one (.dead d now) (.dead _ _ _) rfl) rfl rfl
      | userData data => exact emit_micros _ rfl rfl
      | pushPull _ => exact .refl
      | errorResponse _ => exact .refl
  | timeout now => exact absurd rfl (h1 now)
  | streamEvent ev now =>
    simp only [step]
    unfold handleStreamEvent
    cases ev with
    | payload p =>
      cases p with
      | pushPullReply peer states ud kind stream =>
        dsimp only
        split
        · exact .refl
        · split
          · exact micros_aux rfl rfl rfl
          · exact (micros_aux (e := e) (e' := e.tickUp) rfl rfl rfl).trans
              (mergeRemote_micros _ _ _ _ _ _ now (fun r hr => merges_coreOf (op := .streamEvent _ now) rfl hr))
      | pushPullRequest peer states ud kind stream =>
        dsimp only
        split
        · exact .refl
        · split
          · exact micros_aux rfl rfl rfl
          · exact (micros_aux (e := e) (e' := e.tickUp) rfl rfl rfl).trans
              (mergeRemote_micros _ _ _ _ _ _ now (fun r hr => merges_coreOf (op := .streamEvent _ now) rfl hr))
      | reliablePingAcked seq at_ =>
        dsimp only
        split
        · exact .refl
        · rename_i hl
          simp only [ne_eq, Decidable.not_not] at hl
          exact complete_micros e seq at_ _ _ hl rfl rfl (fun p _ => .inr ⟨⟨now, rfl⟩, rfl, rfl⟩)
      | userData peer data =>
        dsimp only
        split
        · exact .refl
        · exact emit_micros _ rfl rfl
    | reliablePingFailed seq =>
      dsimp only
      split
      · exact .refl
      · exact .of (.retire e seq)
    | streamClosed => exact .refl
    | streamErrored => exact .refl
  | mergeState remote now => exact mergeState_micros _ _ _ (fun r hr => merges_coreOf rfl hr)
  | ping node now => exact absurd rfl (h2 node now)
  | startProbe now => exact absurd rfl (h3 now)
  | startPushPull peer kind now => exact startPushPull_micros _ _ _ _ (.inl rfl)
  | startPushPullDirect peer kind now => exact startPushPullDirect_micros _ _ _ _ rfl
  | startReliablePing id peer seq d => exact startReliablePing_micros _ _ _ _ _ (.inl rfl)
  | startReliablePingDirect id peer seq d => exact startReliablePingDirect_micros _ _ _ _ _ rfl
  | startUserMessage peer payload now => exact startUserMessage_micros _ _ _ _ rfl
  | startUserMessageDirect peer payload now => exact startUserMessageDirect_micros _ _ _ _ rfl
  | dialSucceeded id now => exact dialSucceeded_micros _ _ _ (.inl ⟨now, rfl⟩)
  | dialFailed id => exact dropIntent_micros e id (fun _ _ => .inr (.inl rfl))
  | acceptStream src now =>
    simp only [step]
    unfold acceptStream
    split
    · exact .refl
    · exact .of (.skipId e)
  | startScheduling now =>
    simp only [step]
    unfold startScheduling
    split
    · exact .refl
    · refine micros_aux rfl rfl rfl rfl ⟨?_, ?_, ?_, .inl ⟨rfl, rfl, .inl ⟨rfl, rfl⟩⟩⟩
      · intro h
        by_cases hi : cfg.probeInterval > 0
        · exact .inr hi
        · dsimp only at h; rw [if_neg hi] at h; exact .inl h
      · intro h
        by_cases hi : cfg.gossipInterval > 0 ∧ cfg.gossipNodes > 0
        · exact .inr hi.1
        · dsimp only at h; rw [if_neg hi] at h; exact .inl h
      · intro h
        by_cases hi : cfg.pushPullInterval > 0
        · exact .inr hi
        · dsimp only at h; rw [if_neg hi] at h; exact .inl h
  | resetNodes now => exact resetNodes_micros e now (fun pick => .resetNodes pick now)
  | leave now f =>
    by_cases hl : e.core.lifecycle = .running
    · exact .of (.leave e now f rfl hl)
    · refine .of_eq ?_
      simp only [step]
      unfold leaveWith
      rw [if_pos hl]
  | updateMeta md =>
    simp only [step]
    unfold updateMeta
    split
    · exact .refl
    · split
      · exact .refl
      · rename_i h _
        refine micros_core (Acts.one (.updateMeta md) (.updateMeta md) ?_) rfl rfl
        rw [isRunning_iff, ne_eq, Decidable.not_not] at h
        simp only [act, h, if_true]
  | setAckPayload b =>
    simp only [step]
    unfold setAckPayload
    split
    · exact .refl
    · rename_i hr
      split
      · exact .refl
      · exact .of (.aux _ _ rfl ⟨rfl, rfl, rfl, rfl, rfl, rfl, rfl, rfl⟩ rfl (.inl rfl)
          ⟨.inr ⟨b, rfl, by simpa [isRunning] using hr, by omega, rfl⟩, .inl rfl⟩ (.same rfl))
  | setLocalState b =>
    simp only [step]
    unfold setLocalState
    (repeat' split) <;> first
      | exact micros_aux rfl rfl rfl
      | exact micros_aux rfl rfl rfl rfl ⟨.inl, .inl, .inl, .inl ⟨rfl, rfl, .inr ⟨rfl, .inr rfl⟩⟩⟩
  | setResponseCompression =>
    exact (micros_aux (e := e) (e' := { e with cachedDirty := true }) rfl rfl rfl rfl
      ⟨.inl, .inl, .inl, .inl ⟨rfl, rfl, .inr ⟨rfl, .inl rfl⟩⟩⟩).trans (refreshCache_micros _ (.inr rfl))
  | queueUser rank b =>
    simp only [step]
    unfold queueUser
    split
    · exact .refl
    · rename_i hr
      split
      · exact .refl
      · rename_i hl
        cases hq : e.user.queueRanked bytesOps rank b with
        | none => exact .refl
        | some r =>
          exact .of (.aux _ _ rfl (.refl _) rfl (.inr ⟨rank, b, r.2, rfl, by simpa [isRunning] using hr, by omega, hq⟩) ⟨.inl rfl, .inl rfl⟩ (.same rfl))
  | sendUserPacket dst b =>
    simp only [step]
    unfold sendUserPacket
    split
    · exact .refl
    · split
      · exact .refl
      · rename_i h; exact .of (.send _ _ (.user dst b _ (.inl rfl) _ (by omega)))
  | sendUserPackets dst bs =>
    simp only [step]
    unfold sendUserPackets sendUserPacket
    split
    · exact .refl
    · split
      · exact .refl
      · split
        · exact .refl
        · rename_i h; exact .of (.send _ _ (.user dst _ _ (.inr rfl) _ (by omega)))
      · rename_i h1 h2
        dsimp only
        split
        · exact .refl
        · rename_i h
          refine .of (.send _ _ (.users dst _ ?_ _ (by omega)))
          match bs, h1, h2 with
          | [], h1, _ => exact absurd rfl h1
          | [x], _, h2 => exact absurd rfl (h2 x)
          | _ :: _ :: l, _, _ => simp
  | degradeHealth s => exact micros_core (Acts.one (.fail s) (.fail s) rfl) rfl rfl
  | improveHealth => exact micros_core (Acts.one .success .success rfl) rfl rfl
  | disableReliablePing id => exact .of (.aux _ _ rfl ⟨rfl, rfl, rfl, rfl, rfl, rfl, rfl, rfl⟩ rfl (.inl rfl) ⟨.inl rfl, .inr ⟨id, .inl rfl⟩⟩ (.same rfl))
  | enableReliablePing id => exact .of (.aux _ _ rfl ⟨rfl, rfl, rfl, rfl, rfl, rfl, rfl, rfl⟩ rfl (.inl rfl) ⟨.inl rfl, .inr ⟨id, .inr rfl⟩⟩ (.same rfl))
  | drainBroadcasts => exact micros_core (Acts.one (.drain 0 U64_MAX) (.drain _ _) rfl) rfl rfl
  | external r => exact emit_micros _ rfl rfl
  | pollEvent =>
    simp only [step]
    unfold pollEvent
    split
    · exact .refl
    · rename_i h
      refine micros_core (Acts.one .pop .pop ?_) rfl rfl
      simp only [act, h, List.tail_cons]
  | pollTransmit => exact .of (.poll e rfl)
  | sieveDials => exact micros_core (Acts.one .dropDials .dropDials rfl) rfl rfl
  | requeueDial id peer d =>
    simp only [step]
    unfold requeueDial
    split
    · exact .refl
    · rename_i h
      rw [isRunning_iff, ne_eq, Decidable.not_not] at h
      exact .of (.dial _ _ _ _ h rfl)

/-- The part of a call that may end probes, relayed pings and intents. -/
def stepEnds (cfg : Cfg I A) (env : Env I A) (e : Ep I A) (op : Op I A) : Ep I A :=
  match op with
  | .timeout now => if e.core.lifecycle = .running then timeoutEnds cfg env e now else e
  | .ping _ _ => e
  | .startProbe _ => e
  | op => (e.step cfg env op).1

/-- Every call is a sequence of the elementary steps it may cause: in the first part probes end, in the
second they start. -/
theorem step_micros (e : Ep I A) (op : Op I A) (ht : Tables e.net) :
    Micros cfg env op false e (stepEnds cfg env e op) ∧
      Micros cfg env op true (stepEnds cfg env e op) (e.step cfg env op).1 := by
  by_cases h1 : ∃ now, op = .timeout now
  · obtain ⟨now, rfl⟩ := h1
    by_cases hl : e.core.lifecycle = .running
    · have h := timeoutEnds_micros (cfg := cfg) (env := env) e now (op := .timeout now) rfl hl ht.probes ht.forwards
      simp only [stepEnds, step, if_pos hl]
      rw [handleTimeout_eq e now hl]
      exact ⟨h.1, timeoutStarts_micros _ now rfl h.2⟩
    · simp only [stepEnds, step, if_neg hl]
      refine ⟨.refl, .of_eq ?_⟩
      unfold handleTimeout
      rw [if_pos hl]
  · by_cases h2 : (∃ node now, op = .ping node now) ∨ ∃ now, op = .startProbe now
    · rcases h2 with ⟨node, now, rfl⟩ | ⟨now, rfl⟩
      · exact ⟨.refl, ping_micros _ _ _ rfl rfl⟩
      · exact ⟨.refl, startProbe_micros _ _ (.inl rfl) rfl⟩
    · have h3 : stepEnds cfg env e op = (e.step cfg env op).1 := by
        cases op <;> first | rfl | (exfalso; exact h1 ⟨_, rfl⟩) | (exfalso; exact h2 (.inl ⟨_, _, rfl⟩)) | (exfalso; exact h2 (.inr ⟨_, rfl⟩))
      rw [h3]
      refine ⟨?_, .refl⟩
      rw [not_or] at h2
      exact step_micros_ends e op ht (fun now h => h1 ⟨now, h⟩) (fun node now h => h2.1 ⟨node, now, h⟩) (fun now h => h2.2 ⟨now, h⟩)


end Verif.Ep
