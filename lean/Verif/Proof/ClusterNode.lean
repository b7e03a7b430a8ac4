import Verif.Proof.ClusterOwn
import Verif.Proof.UserData
import Verif.Proof.Cache
import Verif.Proof.Penalty
/-
One call of one node of a cluster: what it believes, keeps and sends stays admissible.
-/
namespace Verif.Cluster
open Verif Core Ep Spec
variable {I A : Type} [DecidableEq I] [DecidableEq A]
variable {cfg : Cfg I A} {env : Env I A}

/-- Bytes that decode only to admissible messages. -/
def BytesOk (K : Facts I A) (CI : DataCodec I) (CA : DataCodec A) (b : Bytes) : Prop :=
  ∀ ms, parseMessages CI CA b = .ok ms → ∀ m ∈ ms, OkMsg K m

omit [DecidableEq I] [DecidableEq A] in
theorem BytesOk.mono {K K' : Facts I A} (h : K.Le K') {CI : DataCodec I} {CA : DataCodec A} {b : Bytes}
    (hb : BytesOk K CI CA b) : BytesOk K' CI CA b := fun ms hp m hm => (hb ms hp m hm).mono h

/-- The record a node has of itself was announced, and if it left, it left. -/
def OwnOk (K : Facts I A) (cfg : Cfg I A) (c : Core I A) : Prop :=
  ∀ m, c.members.get cfg.localId = some m →
    K.ann (aliveOf m.server m.incarnation) ∧ (c.lifecycle = .left → K.gone cfg.localId m.incarnation)

/-- Somebody announced the target of the probe, in an incarnation not below the probed one. -/
def ProbeOk (K : Facts I A) (cfg : Cfg I A) (p : Probe I A) : Prop :=
  p.kind = .detection → p.target.id ≠ cfg.localId ∧
    ∃ a, K.ann a ∧ a.node.id = p.target.id ∧ p.targetIncarnation ≤ a.incarnation

/-- What a node holds, apart from its record of itself. -/
structure Held (K : Facts I A) (cfg : Cfg I A) (env : Env I A) (e : Ep I A) : Prop where
  core : CoreOk K cfg e.core
  ownq : OwnQ cfg e.core
  qok : QOk env e.core.bcast
  out : ∀ t ∈ e.net.transmits, ∀ m ∈ messagesIn t, OkMsg K m
  cache : ∀ r ∈ e.cached.states, OkRec K (claimOf r) r.state
  intents : ∀ x ∈ e.net.intents, x.2.encoded ≠ [] → BytesOk K env.CI env.CA x.2.encoded
  probes : ∀ s p, e.net.probes.get? s = some p → ProbeOk K cfg p

omit [DecidableEq I] [DecidableEq A] in
theorem ProbeOk.mono {K K' : Facts I A} (h : K.Le K') {p : Probe I A} (hp : ProbeOk K cfg p) : ProbeOk K' cfg p := by
  intro hk
  obtain ⟨h1, a, h2, h3⟩ := hp hk
  exact ⟨h1, a, h.ann a h2, h3⟩

theorem CoreOk.mono {K K' : Facts I A} (h : K.Le K') {c : Core I A} (hc : CoreOk K cfg c) : CoreOk K' cfg c :=
  ⟨fun id m hm hid => (hc.recs id m hm hid).mono h, fun x hx hne => (hc.bc x hx hne).mono h⟩

omit [DecidableEq A] in
theorem OwnOk.mono {K K' : Facts I A} (h : K.Le K') {c : Core I A} (hc : OwnOk K cfg c) : OwnOk K' cfg c :=
  fun m hm => ⟨h.ann _ (hc m hm).1, fun e => h.gone _ _ ((hc m hm).2 e)⟩

theorem Held.mono {K K' : Facts I A} (h : K.Le K') {e : Ep I A} (hh : Held K cfg env e) : Held K' cfg env e where
  core := hh.core.mono h
  ownq := hh.ownq
  qok := hh.qok
  out t ht m hm := (hh.out t ht m hm).mono h
  cache r hr := (hh.cache r hr).mono h
  intents x hx hne := (hh.intents x hx hne).mono h
  probes s p hp := (hh.probes s p hp).mono h

/-- The claims a call brings in are admissible. -/
structure InputOk (K : Facts I A) (cfg : Cfg I A) (op : Op I A) : Prop where
  packet : ∀ src m now, op = .packet src m now → OkMsg K m
  remote : ∀ r ∈ op.remote, OkRec K (claimOf r) r.state

omit [DecidableEq I] [DecidableEq A] in
theorem InputOk.mono {K K' : Facts I A} (h : K.Le K') {op : Op I A} (hi : InputOk K cfg op) : InputOk K' cfg op :=
  ⟨fun src m now ho => (hi.packet src m now ho).mono h, fun r hr => (hi.remote r hr).mono h⟩

/-- The calls that read the record the node has of itself. -/
def Reads : Op I A → Prop
  | .leave _ _ => True
  | .timeout _ => True
  | .startPushPull _ _ _ => True
  | .startPushPullDirect _ _ _ => True
  | .setResponseCompression => True
  | _ => False

/-- The application leaves the cluster. -/
def IsLeave (op : Op I A) : Prop := ∃ now f, op = .leave now f

/-- An action that leaves what the node says of itself alone. -/
def SparesOwn (cfg : Cfg I A) (op : Op I A) (x : Act I A) : Prop :=
  (∀ acc, ¬ Accuses cfg.localId x acc) ∧ (∀ md, x ≠ .updateMeta md) ∧ (∀ now, x = .leave now → IsLeave op)

/-- What the core of a node may do in a call. -/
def Allowed (K : Facts I A) (cfg : Cfg I A) (op : Op I A) (x : Act I A) : Prop :=
  OkAct K x ∧ (Reads op → SparesOwn cfg op x) ∧ ∀ md, x = .updateMeta md → op = .updateMeta md

omit [DecidableEq I] [DecidableEq A] in
theorem base_allowed (K : Facts I A) (op : Op I A) : Base (Allowed K cfg op) where
  push _ _ := ⟨trivial, fun _ => ⟨fun _ h => (by cases h), nofun, nofun⟩, nofun⟩
  fail _ := ⟨trivial, fun _ => ⟨fun _ h => (by cases h), nofun, nofun⟩, nofun⟩
  success := ⟨trivial, fun _ => ⟨fun _ h => (by cases h), nofun, nofun⟩, nofun⟩
  drain _ _ := ⟨trivial, fun _ => ⟨fun _ h => (by cases h), nofun, nofun⟩, nofun⟩
  one _ := ⟨trivial, fun _ => ⟨fun _ h => (by cases h), nofun, nofun⟩, nofun⟩

omit [DecidableEq I] [DecidableEq A] in
theorem reads_remote {op : Op I A} (h : Reads op) : op.remote = [] := by
  cases op <;> first | rfl | exact absurd h id

theorem coreOf_allowed {K : Facts I A} {op : Op I A} (hi : InputOk K cfg op) {x : Act I A} (hx : CoreOf cfg env op x) :
    Allowed K cfg op x := by
  cases hx with
  | alive src a now tk off => exact ⟨hi.packet src _ now rfl, fun h => absurd h id, nofun⟩
  | suspect src s now => exact ⟨hi.packet src _ now rfl, fun h => absurd h id, nofun⟩
  | dead src d now => exact ⟨hi.packet src _ now rfl, fun h => absurd h id, nofun⟩
  | remoteAlive r tk off hn hr hs =>
    exact ⟨(hi.remote r hr).live hs, fun h => (by rw [reads_remote h] at hr; cases hr), nofun⟩
  | remoteBad r hn hr hs =>
    refine ⟨(hi.remote r hr).bad (by rcases hs with e | e <;> rw [e] <;> nofun), fun h => (by rw [reads_remote h] at hr; cases hr), nofun⟩
  | remoteLeft r hn hr hs =>
    refine ⟨⟨(hi.remote r hr).bad (by rw [hs]; nofun), fun _ => (hi.remote r hr).left hs⟩,
      fun h => (by rw [reads_remote h] at hr; cases hr), nofun⟩
  | expire now => exact ⟨trivial, fun _ => ⟨fun _ h => (by cases h), nofun, nofun⟩, nofun⟩
  | reset pick now => exact ⟨trivial, fun _ => ⟨fun _ h => (by cases h), nofun, nofun⟩, nofun⟩
  | resetNodes pick now => exact ⟨trivial, fun _ => ⟨fun _ h => (by cases h), nofun, nofun⟩, nofun⟩
  | updateMeta md => exact ⟨trivial, fun h => absurd h id, fun _ h => by cases h; rfl⟩
  | push ev h hq => exact (base_allowed K op).push ev h
  | pop => exact ⟨trivial, fun h => absurd h id, nofun⟩
  | dropDials => exact ⟨trivial, fun h => absurd h id, nofun⟩
  | fail sev => exact (base_allowed K _).fail sev
  | success => exact (base_allowed K _).success
  | drain o l => exact (base_allowed K _).drain o l

/-- The core moves by allowed actions. -/
theorem micro_allowed {K : Facts I A} {op : Op I A} (hi : InputOk K cfg op) {late : Bool} {a b : Ep I A}
    (hp : ∀ s p, a.net.probes.get? s = some p → ProbeOk K cfg p)
    (hf : ∀ s p now, a.net.probes.get? s = some p → p.kind = .detection → FailWhy cfg op p now → late = false →
      b.net.probes.get? s = none → K.failed p.target.id p.targetIncarnation)
    (hm : Micro cfg env op late a b) : Acts cfg env (Allowed K cfg op) a.core b.core := by
  have hb := base_allowed (cfg := cfg) K op
  cases hm with
  | core x hx => exact .single (coreOf_allowed hi hx)
  | aux _ hc hn hf hu => exact .of_eq hc
  | send t ht => exact .refl _
  | dial id peer d hr hd => exact acts_push hb a.core (ev := .dialRequested id peer d) rfl
  | start seq p a hs hr hw hlt => exact .refl _
  | alloc seq hs => exact .refl _
  | dispatched seq b hlt => exact .refl _
  | fail seq p now hp' hw hr hlt =>
    have hnone : (a.probeTerminateFailure cfg env seq now).net.probes.get? seq = none := by
      rw [terminate_net _ _ _ _ hp', discard_probes, Map.get?_erase, if_pos rfl]
    unfold probeTerminateFailure
    rw [hp']
    dsimp only
    cases hk : p.kind with
    | ping => exact acts_push hb a.core rfl
    | detection =>
      dsimp only
      split
      · exact .refl _
      · dsimp only
        have h1 : Acts cfg env (Allowed K cfg op) a.core
            (bump { a.core with awareness := a.core.awareness.recordFailure (severity p) }) :=
          .single (a := .fail (severity p)) (hb.fail _)
        split
        · refine h1.trans (.single (a := .suspect
            { incarnation := p.targetIncarnation, node := p.target.id, src := cfg.localId } now) ?_)
          refine ⟨.inl (hf seq p now hp' hk hw hlt hnone), fun _ => ⟨fun acc hacc => ?_, nofun, nofun⟩, nofun⟩
          cases hacc with
          | suspect _ _ h3 => exact (hp seq p hp' hk).1 h3
        · exact h1
  | done seq p direct payload now hp' hd hw hr hlt =>
    unfold completeProbeSuccess
    rw [hp']
    dsimp only
    rw [if_neg (by omega)]
    cases p.kind with
    | ping => exact acts_push hb a.core rfl
    | detection =>
      have h1 : Acts cfg env (Allowed K cfg op) a.core (bump { a.core with awareness := a.core.awareness.recordSuccess }) :=
        .single (a := .success) hb.success
      dsimp only
      split
      · exact h1.trans (acts_push hb _ rfl)
      · exact h1
  | nack src seq now ho => rw [handleNack_core]; exact .refl _
  | fan seq p now peers st ho hp hk hph hd hf hl hnd ha hfit hlt => exact .refl _
  | fwd seq src p now ho hs hsrc hl hnew => exact .refl _
  | fwdAnswer seq f hf payload now ho hd => exact .refl _
  | fwdExpire seq f hf now ho hd => exact .refl _
  | intent i hr => exact .refl _
  | intentDial i hr hw =>
    exact acts_push hb (a.addIntent i).core (ev := .dialRequested a.net.nextStreamId i.peer i.deadline) rfl
  | skipId => exact .refl _
  | unintent id hw => exact .refl _
  | retire seq => exact .refl _
  | gossip targets now ho hr => rw [sendAll_core]; exact drainGossip_acts hb a
  | leave now f ho hr =>
    exact leaveWith_acts hb a now f ⟨trivial, fun _ => ⟨fun _ h => (by cases h), nofun, fun _ _ => ⟨now, f, ho⟩⟩, nofun⟩
  | poll ho =>
    unfold pollTransmit
    split
    · exact .refl _
    · dsimp only
      split
      · exact .refl _
      · split
        · exact acts_push hb _ rfl
        · exact .refl _

theorem spares_own {op : Op I A} {c : Core I A} (hg : Good cfg c) {x : Act I A} (hx : SparesOwn cfg op x) :
    (∀ m', (Core.act cfg env c x).members.get cfg.localId = some m' → ∃ m, c.members.get cfg.localId = some m ∧
      m.server = m'.server ∧ m.incarnation = m'.incarnation) ∧
    ((Core.act cfg env c x).lifecycle = .left → c.lifecycle = .left ∨ IsLeave op) := by
  refine ⟨?_, ?_⟩
  · have hch := act_change (env := env) hg x cfg.localId
    intro m' hm'
    rw [hm'] at hch
    generalize hgo2 : c.members.get cfg.localId = o at hch
    cases hch with
    | same => exact ⟨m', rfl, rfl, rfl⟩
    | confirm _ _ _ _ _ _ _ h => exact absurd rfl h
    | refuted _ m acc _ _ ha => exact absurd ha (hx.1 acc)
    | suspected _ _ _ _ _ _ h => exact absurd rfl h
    | killed _ _ _ _ h => exact absurd rfl h
    | expired _ _ _ h => exact absurd rfl h
    | newer _ _ _ _ _ _ h => exact absurd rfl h
    | reclaimed _ _ _ _ _ _ h => exact absurd rfl h
    | new _ _ _ _ _ h => exact absurd rfl h
    | metadata md => exact absurd rfl (hx.2.1 md)
    | left now m => exact ⟨m, rfl, rfl, (hg.inv.local_get hgo2).inc⟩
  · rcases act_lifecycle (env := env) hg x with e | ⟨now, e, _⟩
    · rw [e]; exact .inl
    · exact fun _ => .inr (hx.2.2 now e)

/-- What the node says of itself is as it was before the call, and if it left, it was by this call or before. -/
structure SameOwn (cfg : Cfg I A) (op : Op I A) (c c' : Core I A) : Prop where
  same : ∀ m', c'.members.get cfg.localId = some m' → ∃ m, c.members.get cfg.localId = some m ∧
    m.server = m'.server ∧ m.incarnation = m'.incarnation
  left : c'.lifecycle = .left → c.lifecycle = .left ∨ IsLeave op

omit [DecidableEq A] in
theorem SameOwn.ok {K : Facts I A} {op : Op I A} {c c' : Core I A} (h : SameOwn cfg op c c') (ho : OwnOk K cfg c)
    (hg : IsLeave op → ∀ m, c.members.get cfg.localId = some m → K.gone cfg.localId m.incarnation) : OwnOk K cfg c' := by
  intro m' hm'
  obtain ⟨m, hm, e1, e2⟩ := h.same m' hm'
  rw [← e1, ← e2]
  exact ⟨(ho m hm).1, fun e => (h.left e).elim (ho m hm).2 (fun hl => hg hl m hm)⟩

/-- The state of a node within a call: admissible unless the queue was called too often, and what it says about itself
is unchanged where the call reads it. -/
def Mid (K : Facts I A) (cfg : Cfg I A) (env : Env I A) (e : Ep I A) (op : Op I A) (b : Ep I A) : Prop :=
  b.core.bcast.calls ≤ U64_MAX → Held K cfg env b ∧ (Reads op → SameOwn cfg op e.core b.core) ∧
    Acts cfg env (Allowed K cfg op) e.core b.core

theorem acts_calls {P : Act I A → Prop} {c c' : Core I A} (hg : Good cfg c) (h : Acts cfg env P c c') :
    c.bcast.calls ≤ c'.bcast.calls :=
  h.inductGood (Q := fun x => c.bcast.calls ≤ x.bcast.calls) hg (Nat.le_refl _)
    (fun _ x _ hc hq => Nat.le_trans hq (qs_act hc x).calls)

/-! ### What is sent -/

theorem known_ok {K : Facts I A} {e : Ep I A} (hg : Good cfg e.core) (hc : CoreOk K cfg e.core) {s : BadState I}
    (h : KnownSuspect cfg e s) : OkMsg K (.suspect s : Message I A) := by
  obtain ⟨m, hm, hid, hst, rfl⟩ := h
  have hget : e.core.members.get m.id = some m := (Table.get_iff hg.inv.nodup).2 ⟨hm, rfl⟩
  exact (hc.recs m.id m hget hid).bad (by rw [hst]; nofun)

theorem snd_ok {K : Facts I A} {op : Op I A} {e : Ep I A} (hg : Good cfg e.core) (hc : CoreOk K cfg e.core)
    {t : Transmit I A} (h : Snd cfg env op e t) : ∀ m ∈ messagesIn t, OkMsg K m := by
  intro x hx
  cases h with
  | ack => rw [List.mem_singleton.1 hx]; trivial
  | refuse => rw [List.mem_singleton.1 hx]; trivial
  | relay _ _ _ _ msg hf hm => obtain ⟨_, rfl⟩ := hm; rw [List.mem_singleton.1 hx]; trivial
  | probe _ now ho _ dst msg h hm hk =>
    rw [List.mem_singleton.1 hx]
    rcases hm with ⟨_, rfl⟩ | ⟨s, rfl⟩
    · trivial
    · exact known_ok hg hc (hk s rfl)
  | probeBoth _ now ho _ dst p s h hk =>
    simp only [messagesIn, List.mem_cons, List.not_mem_nil, or_false] at hx
    rcases hx with rfl | rfl
    · trivial
    · exact known_ok hg hc hk
  | ping => rw [List.mem_singleton.1 hx]; trivial
  | user => rw [List.mem_singleton.1 hx]; trivial
  | users dst many =>
    obtain ⟨b, _, rfl⟩ := List.mem_map.1 hx
    trivial

theorem own_ok {K : Facts I A} {c : Core I A} (h : OwnOk K cfg c) {own : Member I A}
    (ho : c.members.get cfg.localId = some own) {msg : Message I A} (hm : OwnMsg own c.lifecycle msg) : OkMsg K msg := by
  have hid : own.server.id = cfg.localId := get_id ho
  rcases hm with rfl | ⟨hl, rfl⟩
  · exact (h own ho).1
  · have := (h own ho).2 hl
    rw [← hid] at this
    exact ⟨.inr this, fun _ => this⟩

theorem queue_ok {K : Facts I A} {c : Core I A} (hg : Good cfg c) (hc : CoreOk K cfg c) (hq : OwnQ cfg c)
    (ho : OwnOk K cfg c) (hu : c.bcast.calls ≤ U64_MAX) : c.bcast.All (fun _ b => OkMsg K b.2) := by
  intro x hx
  by_cases hl : x.broadcast.1 = cfg.localId
  · obtain ⟨own, hown, _⟩ := hg.inv.loc
    exact own_ok ho hown (hq hu own hown x hx hl)
  · exact hc.bc x hx hl

theorem drainGossip_ok {K : Facts I A} {e : Ep I A} (h : e.core.bcast.All (fun _ b => OkMsg K b.2)) :
    ∀ m ∈ (e.drainGossip cfg env).2, OkMsg K m := by
  have hu : ∀ (l : List Bytes), ∀ m ∈ l.map (Message.userData (I := I) (A := A)), OkMsg K m := by
    intro l m hm
    obtain ⟨b, _, rfl⟩ := List.mem_map.1 hm
    trivial
  unfold drainGossip
  dsimp only
  split
  · intro m hm
    obtain ⟨x, hx, rfl⟩ := List.mem_map.1 hm
    exact ((BQueue.takeOne_all h _ _).2.2 x hx).1
  · split
    · exact hu _
    · intro m hm
      rcases List.mem_append.1 hm with hm | hm
      · obtain ⟨x, hx, rfl⟩ := List.mem_map.1 hm
        exact (BQueue.takeMeasured_all h _ _ _).sent x hx
      · exact hu _ m hm

omit [DecidableEq I] [DecidableEq A] in
theorem carrying_ok {K : Facts I A} {msgs : List (Message I A)} (h : ∀ m ∈ msgs, OkMsg K m) {dst : A}
    {t : Transmit I A} (ht : t ∈ carrying dst msgs) : ∀ m ∈ messagesIn t, OkMsg K m := by
  intro m hm
  unfold carrying at ht
  split at ht
  · cases ht
  · rw [List.mem_singleton.1 ht] at hm; exact h m hm
  · rw [List.mem_singleton.1 ht] at hm; exact h m hm

theorem table_ok {K : Facts I A} {c : Core I A} (hg : Good cfg c) (hc : CoreOk K cfg c) (ho : OwnOk K cfg c) :
    ∀ r ∈ tableStates c.members, OkRec K (claimOf r) r.state := by
  intro r hr
  obtain ⟨m, hm, rfl⟩ := List.mem_map.1 hr
  have hget : c.members.get m.id = some m := (Table.get_iff hg.inv.nodup).2 ⟨hm, rfl⟩
  show OkRec K (aliveOf m.server m.incarnation) m.state
  by_cases hid : m.id = cfg.localId
  · rw [hid] at hget
    obtain ⟨h1, h2⟩ := ho m hget
    have hst := (hg.inv.local_get hget).state
    have hsid : m.server.id = cfg.localId := hid
    by_cases hl : c.lifecycle = .left
    · rw [if_pos hl] at hst
      have hgone : K.gone m.server.id m.incarnation := by rw [hsid]; exact h2 hl
      rw [hst]
      exact ⟨⟨_, h1, rfl, rfl, rfl, rfl, Nat.le_refl _⟩, nofun, fun _ => .inr hgone, fun _ => hgone,
        .inr (.inr (.inr rfl))⟩
    · rw [if_neg hl] at hst
      rw [hst]
      exact ⟨⟨_, h1, rfl, rfl, rfl, rfl, Nat.le_refl _⟩, fun _ => h1, fun e => absurd rfl e, nofun, .inl rfl⟩
  · exact hc.recs m.id m hget hid

omit [DecidableEq I] [DecidableEq A] in
theorem encoded_ok {K : Facts I A} (hK : K.Sane) (LI : LawfulData env.CI) (LA : LawfulData env.CA) {m : Message I A}
    (hm : OkMsg K m) (hne : encodeBytes env m ≠ []) : BytesOk K env.CI env.CA (encodeBytes env m) := by
  intro ms hp x hx
  unfold encodeBytes at hp hne
  cases he : encodeTyped env.CI env.CA m with
  | error e => rw [he] at hne; exact absurd rfl hne
  | ok b =>
    rw [he] at hp
    obtain ⟨m', rfl, hd⟩ := parse_encoded LI LA he hp
    rw [List.mem_singleton.1 hx]
    exact hm.decodes hK hd

theorem intent_ok {K : Facts I A} (hK : K.Sane) (LI : LawfulData env.CI) (LA : LawfulData env.CA) {op : Op I A}
    {e : Ep I A} (hg : Good cfg e.core) (hc : CoreOk K cfg e.core) (ho : Reads op → OwnOk K cfg e.core) {i : Intent A}
    (hw : IntentWhy cfg env op e i) (hne : i.encoded ≠ []) : BytesOk K env.CI env.CA i.encoded := by
  cases hw with
  | pushPull peer kind now h =>
    have hr : Reads op := by
      rcases h with rfl | rfl | ⟨rfl, _⟩ <;> trivial
    exact encoded_ok hK LI LA (m := .pushPull _) (table_ok hg hc (ho hr)) hne
  | reliable => exact encoded_ok hK LI LA (m := .ping _) trivial hne
  | user => exact encoded_ok hK LI LA (m := .userData _) trivial hne

theorem leave_out {K : Facts I A} {e : Ep I A} (hg : Good cfg e.core) (hr : e.core.lifecycle = .running) (now : Nat)
    (f : Option Bytes) (hgone : ∀ m, e.core.members.get cfg.localId = some m → K.gone cfg.localId m.incarnation) :
    ∀ t ∈ (e.leaveWith cfg env now f).net.transmits, ∀ m ∈ messagesIn t, OkMsg K m := by
  have hd : OkMsg K (.dead (farewellClaim cfg e.core) : Message I A) := by
    obtain ⟨m, hm, hlo⟩ := hg.inv.loc
    have : (farewellClaim cfg e.core).incarnation = m.incarnation := by
      unfold farewellClaim
      dsimp only
      rw [hm]
      dsimp only
      rw [hlo.inc]
      simp
    have h2 := hgone m hm
    rw [← this] at h2
    exact ⟨.inr h2, fun _ => h2⟩
  generalize hdd : farewellClaim cfg e.core = d at hd
  unfold leaveWith
  rw [if_neg (by simp [hr])]
  dsimp only
  rw [hdd]
  split
  · intro t ht; cases ht
  · have key : ∀ (peers : List A) (e1 : Ep I A) (ps : List Bytes),
        (∀ t ∈ e1.net.transmits, ∀ m ∈ messagesIn t, OkMsg K m) →
        ∀ t ∈ (e1.sendFarewells peers ps d).net.transmits, ∀ m ∈ messagesIn t, OkMsg K m := by
      intro peers e1 ps h1
      unfold sendFarewells
      induction peers generalizing e1 with
      | nil => exact h1
      | cons x l ih =>
        rw [List.foldl_cons]
        refine ih _ ?_
        split
        · intro t ht
          rcases List.mem_append.1 ht with ht | ht
          · exact h1 t ht
          · rw [List.mem_singleton.1 ht]
            intro m hm
            rw [List.mem_singleton.1 hm]; exact hd
        · intro t ht
          rcases List.mem_append.1 ht with ht | ht
          · exact h1 t ht
          · rw [List.mem_singleton.1 ht]
            intro m hm
            rcases List.mem_append.1 hm with hm | hm
            · obtain ⟨b, _, rfl⟩ := List.mem_map.1 hm; trivial
            · rw [List.mem_singleton.1 hm]; exact hd
    refine key _ _ _ ?_
    intro t ht
    dsimp only at ht
    rw [farewellPayloads_net] at ht
    cases ht

/-! ### The elementary steps -/

omit [DecidableEq I] in
theorem erase_sub {V : Type} {m : Map Nat V} {k : Nat} {x : Nat × V} (h : x ∈ m.erase k) : x ∈ m :=
  (List.mem_filter.1 h).1

omit [DecidableEq I] in
theorem insert_sub {V : Type} {m : Map Nat V} {k : Nat} {v : V} {x : Nat × V} (h : x ∈ m.insert k v) :
    x = (k, v) ∨ x ∈ m := by
  induction m with
  | nil => exact .inl (List.mem_singleton.1 h)
  | cons y m ih =>
    obtain ⟨k', v'⟩ := y
    unfold Map.insert at h
    split at h
    · rcases List.mem_cons.1 h with h | h
      · exact .inl h
      · exact .inr (List.mem_cons_of_mem _ h)
    · rcases List.mem_cons.1 h with h | h
      · exact .inr (h ▸ List.mem_cons_self ..)
      · exact (ih h).imp id (List.mem_cons_of_mem _)

theorem leave_cached (a : Ep I A) (now : Nat) (f : Option Bytes) (hr : a.core.lifecycle = .running) :
    (a.leaveWith cfg env now f).cached = a.cached := by
  have h : other (a.leaveWith cfg env now f) = (none, none, none, a.cached, a.cachedVer, a.cachedDirty, a.localState) := by
    unfold leaveWith
    rw [if_neg (by simp [hr])]
    dsimp only
    split
    · rfl
    · refine (sendFarewells_other _ _ _ _).trans ?_
      exact (farewellPayloads_other (cfg := cfg) (env := env) _ _ f).trans rfl
  simp only [other, Prod.mk.injEq] at h
  exact h.2.2.2.1

theorem mid_micro {K : Facts I A} (hK : K.Sane) (LI : LawfulData env.CI) (LA : LawfulData env.CA) {e : Ep I A}
    {op : Op I A} (hi : InputOk K cfg op) (ho : OwnOk K cfg e.core)
    (hgone : IsLeave op → ∀ m, e.core.members.get cfg.localId = some m → K.gone cfg.localId m.incarnation)
    {late : Bool} {a b : Ep I A} (hg : Good cfg a.core) (hn : NetOk cfg a.net)
    (hf : ∀ s p now, a.net.probes.get? s = some p → p.kind = .detection → FailWhy cfg op p now → late = false →
      b.net.probes.get? s = none → K.failed p.target.id p.targetIncarnation)
    (hm : Micro cfg env op late a b) (h : Mid K cfg env e op a) : Mid K cfg env e op b := by
  intro hcalls
  have hca : a.core.bcast.calls ≤ U64_MAX := Nat.le_trans (acts_calls hg (micro_acts hm)) hcalls
  obtain ⟨hh, hown, hpast⟩ := h hca
  have hacts := micro_allowed hi hh.probes hf hm
  have howna : Reads op → OwnOk K cfg a.core := fun hr => (hown hr).ok ho hgone
  refine ⟨⟨?_, ?_, ?_, ?_, ?_, ?_, ?_⟩, ?_, hpast.trans hacts⟩
  · exact hacts.inductGood (Q := CoreOk K cfg) hg hh.core (fun c x hx hc hq => coreOk_act hc hx.1 hq)
  · exact (hacts.inductGood (Q := fun c => OwnQ cfg c ∧ QOk env c.bcast) hg ⟨hh.ownq, hh.qok⟩
      (fun c x hx hc hq => ⟨hq.1.act hc hq.2 x, (qs_act hc x).ok hq.2⟩)).1
  · exact hacts.inductGood (Q := fun c => QOk env c.bcast) hg hh.qok (fun c x hx hc hq => (qs_act hc x).ok hq)
  · -- datagrams
    have hsend : ∀ {t : Transmit I A}, (∀ m ∈ messagesIn t, OkMsg K m) →
        ∀ x ∈ a.net.transmits ++ [t], ∀ m ∈ messagesIn x, OkMsg K m := by
      intro t h2 x hx
      rcases List.mem_append.1 hx with hx | hx
      · exact hh.out x hx
      · rw [List.mem_singleton.1 hx]; exact h2
    cases hm with
    | aux _ hc hn hf hu => rw [hn.transmits]; exact hh.out
    | send t ht => exact hsend (snd_ok hg hh.core ht)
    | fail seq p now hp hw hr hlt =>
      have : (a.probeTerminateFailure cfg env seq now).net.transmits = a.net.transmits := by
        rw [terminate_net _ _ _ _ hp]
        unfold discardProbe
        dsimp only
        split <;> rfl
      rw [this]; exact hh.out
    | done seq p direct payload now hp hd hw hr hlt => rw [complete_net _ _ _ _ _ _ hp hd]; exact hh.out
    | nack src seq now ho =>
      have : (a.handleNack src seq now).net.transmits = a.net.transmits := by
        unfold handleNack
        (repeat' split) <;> rfl
      rw [this]; exact hh.out
    | fan seq p now peers st ho hp hk hph hd hf hl hnd ha hfit hlt =>
      intro t ht
      rcases List.mem_append.1 ht with ht | ht
      · exact hh.out t ht
      · obtain ⟨x, _, rfl⟩ := List.mem_map.1 ht
        intro m hm
        rw [List.mem_singleton.1 hm]; trivial
    | fwdAnswer seq f hf payload now ho hd =>
      exact hsend (by intro m hm; rw [List.mem_singleton.1 hm]; trivial)
    | fwdExpire seq f hf now ho hd =>
      exact hsend (by intro m hm; rw [List.mem_singleton.1 hm]; trivial)
    | gossip targets now ho hr hlt =>
      intro t ht
      rw [sendAll_transmits, (drainGossip_net _).1] at ht
      rcases List.mem_append.1 ht with ht | ht
      · exact hh.out t ht
      · obtain ⟨x, _, ht⟩ := List.mem_flatMap.1 ht
        exact carrying_ok (drainGossip_ok (queue_ok hg hh.core hh.ownq (howna (by rw [ho]; trivial)) hca)) ht
    | leave now f ho hr =>
      refine leave_out hg hr now f ?_
      intro m hm
      obtain ⟨m0, h0, e1, e2⟩ := (hown (by rw [ho]; trivial)).same m hm
      rw [← e2]
      exact hgone ⟨now, f, ho⟩ m0 h0
    | poll ho =>
      intro t ht
      refine hh.out t ?_
      unfold pollTransmit at ht
      split at ht
      · exact ht
      · rename_i t0 rest hts
        dsimp only at ht
        rw [hts]
        refine List.mem_cons_of_mem _ ?_
        revert ht
        split
        · exact id
        · split <;> exact id
    | _ => exact hh.out
  · -- the cached answer
    cases hm with
    | aux _ hc hn hf hu hp hot =>
      rcases hot.cache with ⟨hc, _⟩ | ⟨hc, _, _, hop⟩
      · rw [hc]; exact hh.cache
      · rw [hc]
        exact table_ok hg hh.core (howna (by rcases hop with ⟨_, rfl⟩ | rfl <;> trivial))
    | fail seq p now hp hw hr hlt =>
      have : (a.probeTerminateFailure cfg env seq now).cached = a.cached := by
        unfold probeTerminateFailure
        (repeat' split) <;> rfl
      rw [this]; exact hh.cache
    | done seq p direct payload now hp hd hw hr hlt =>
      have : (a.completeProbeSuccess cfg env seq direct payload now).cached = a.cached := by
        unfold completeProbeSuccess probeTerminateFailure
        (repeat' split) <;> rfl
      rw [this]; exact hh.cache
    | nack src seq now ho =>
      have : (a.handleNack src seq now).cached = a.cached := by
        unfold handleNack
        (repeat' split) <;> rfl
      rw [this]; exact hh.cache
    | gossip targets now ho hr hlt =>
      have : other ((a.drainGossip cfg env).1.sendAll targets (a.drainGossip cfg env).2) = other a := by
        rw [sendAll_other, drainGossip_other]
      simp only [other, Prod.mk.injEq] at this
      rw [this.2.2.2.1]; exact hh.cache
    | leave now f ho hr =>
      have : (a.leaveWith cfg env now f).cached = a.cached := leave_cached a now f hr
      rw [this]; exact hh.cache
    | poll ho =>
      have : a.pollTransmit.1.cached = a.cached := by
        unfold pollTransmit
        split
        · rfl
        · dsimp only
          split
          · rfl
          · split <;> rfl
      rw [this]; exact hh.cache
    | _ => exact hh.cache
  · -- the requests that wait for a stream
    have hadd : ∀ i, IntentWhy cfg env op a i → ∀ x ∈ a.net.intents.insert a.net.nextStreamId i, x.2.encoded ≠ [] →
        BytesOk K env.CI env.CA x.2.encoded := by
      intro i hw x hx hne
      rcases insert_sub hx with rfl | hx
      · exact intent_ok hK LI LA hg hh.core howna hw hne
      · exact hh.intents x hx hne
    cases hm with
    | aux _ hc hn hf hu => rw [hn.intents]; exact hh.intents
    | fail seq p now hp hw hr hlt =>
      intro x hx
      refine hh.intents x ?_
      rw [terminate_net _ _ _ _ hp] at hx
      unfold discardProbe at hx
      dsimp only at hx
      split at hx
      · exact erase_sub hx
      · exact hx
    | done seq p direct payload now hp hd hw hr hlt => rw [complete_net _ _ _ _ _ _ hp hd]; exact hh.intents
    | nack src seq now ho =>
      have : (a.handleNack src seq now).net.intents = a.net.intents := by
        unfold handleNack
        (repeat' split) <;> rfl
      rw [this]; exact hh.intents
    | intent i hr hw => exact hadd i hw
    | intentDial i hr hw => exact hadd i hw
    | unintent id hw => exact fun x hx => hh.intents x (erase_sub hx)
    | gossip targets now ho hr hlt =>
      have : ((a.drainGossip cfg env).1.sendAll targets (a.drainGossip cfg env).2).net.intents = a.net.intents := by
        obtain ⟨ts, h1, _⟩ := sendAll_net (a.drainGossip cfg env).1 targets (a.drainGossip cfg env).2
        rw [h1]
        dsimp only
        rw [(drainGossip_net _).1]
      rw [this]; exact hh.intents
    | leave now f ho hr =>
      have : (a.leaveWith cfg env now f).net.intents = [] := by
        obtain ⟨ts, h1⟩ := leaveWith_net (cfg := cfg) (env := env) a now f hr
        rw [h1]
      rw [this]; nofun
    | poll ho =>
      have : a.pollTransmit.1.net.intents = a.net.intents := by
        unfold pollTransmit
        split
        · rfl
        · dsimp only
          split
          · rfl
          · split <;> rfl
      rw [this]; exact hh.intents
    | _ => exact hh.intents
  · -- probes
    intro s p' hp'
    cases micro_slot hm hn s with
    | none h h' => rw [h'] at hp'; cases hp'
    | kept q q' h h' hs =>
      rw [h'] at hp'; cases hp'
      have := hh.probes s q h
      unfold ProbeOk
      rw [hs.kind, hs.target, hs.inc]
      exact this
    | started q ak h h' hw hlt =>
      rw [h'] at hp'; cases hp'
      intro hk
      rcases hw with ⟨node, now, _, _, rfl⟩ | ⟨m, now, ⟨h1, h2, _⟩, _, _, rfl⟩
      · cases hk
      · have hget : a.core.members.get m.id = some m := (Table.get_iff hg.inv.nodup).2 ⟨h1, rfl⟩
        have hrec := hh.core.recs m.id m hget h2
        refine ⟨h2, ?_⟩
        by_cases hst : m.state = .alive
        · exact ⟨_, hrec.live hst, rfl, Nat.le_refl _⟩
        · exact hK.reach _ _ (hrec.bad hst)
    | failed q now h h' hw he hlt => rw [h'] at hp'; cases hp'
    | done q d pl now h h' hd hw he hlt => rw [h'] at hp'; cases hp'
  · -- what the node says of itself
    intro hr
    refine hacts.inductGood (Q := SameOwn cfg op e.core) hg (hown hr) ?_
    intro c x hx hc hq
    obtain ⟨h1, h2⟩ := spares_own (env := env) hc (hx.2.1 hr)
    refine ⟨fun m' hm' => ?_, fun hl => (h2 hl).elim hq.left .inr⟩
    obtain ⟨m, hm, e1, e2⟩ := h1 m' hm'
    obtain ⟨m0, hm0, e3, e4⟩ := hq.same m hm
    exact ⟨m0, hm0, e3.trans e1, e4.trans e2⟩

/-! ### One call -/

/-- The facts after a call has come to the state `b`: those before, and the detection probes that were pending, ran
out of time in this call, and are gone. -/
def Facts.plus (K : Facts I A) (cfg : Cfg I A) (e : Ep I A) (op : Op I A) (b : Ep I A) : Facts I A :=
  { K with failed := fun i k => K.failed i k ∨ ∃ s p now, pending e s = some p ∧ p.kind = .detection ∧
      FailWhy cfg op p now ∧ b.net.probes.get? s = none ∧ p.target.id = i ∧ p.targetIncarnation = k }

omit [DecidableEq I] [DecidableEq A] in
theorem Facts.le_plus (K : Facts I A) (e : Ep I A) (op : Op I A) (b : Ep I A) : K.Le (K.plus cfg e op b) :=
  ⟨fun _ h => h, fun _ _ h => .inl h, fun _ _ h => h⟩

omit [DecidableEq I] [DecidableEq A] in
theorem Facts.plus_sane {K : Facts I A} (hK : K.Sane) {e : Ep I A} (hp : ∀ s p, e.net.probes.get? s = some p → ProbeOk K cfg p)
    (op : Op I A) (b : Ep I A) : (K.plus cfg e op b).Sane := by
  refine ⟨hK.wf, ?_⟩
  rintro i k ((h | ⟨s, p, now, h1, h2, _, _, rfl, rfl⟩) | h)
  · exact hK.reach i k (.inl h)
  · exact (hp s p h1 h2).2
  · exact hK.reach i k (.inr h)

/-- What one call makes of an admissible node. -/
theorem step_mid {K : Facts I A} (hK : K.Sane) (LI : LawfulData env.CI) (LA : LawfulData env.CA) {e : Ep I A}
    (h : Reachable cfg env e) (hh : Held K cfg env e) (ho : OwnOk K cfg e.core) {op : Op I A} (hi : InputOk K cfg op)
    (hgone : IsLeave op → ∀ m, e.core.members.get cfg.localId = some m → K.gone cfg.localId m.incarnation) :
    Mid (K.plus cfg e op (stepEnds cfg env e op)) cfg env e op (e.step cfg env op).1 := by
  have hsane := fun b => Facts.plus_sane (cfg := cfg) hK hh.probes op b
  refine step_micro_induct2 (Q := fun b => (∀ s p', b.net.probes.get? s = some p' →
      ∃ p, pending e s = some p ∧ Kept op false s p p') ∧ Mid (K.plus cfg e op b) cfg env e op b)
    (R := Mid (K.plus cfg e op (stepEnds cfg env e op)) cfg env e op) h op ?_ ?_ ?_ ?_
  · exact ⟨fun s p' hp => ⟨p', hp, .refl _⟩, fun _ => ⟨hh.mono (Facts.le_plus K e op e),
      fun _ => ⟨fun m' hm' => ⟨m', hm', rfl, rfl⟩, .inl⟩, .refl _⟩⟩
  · rintro a b hg hn ⟨hp, hM⟩ hmic
    have hnone : ∀ s, a.net.probes.get? s = none → b.net.probes.get? s = none := by
      intro s hs
      cases micro_slot hmic hn s with
      | none _ h' => exact h'
      | kept q q' h _ _ => rw [hs] at h; cases h
      | started q ak _ _ _ hlt => cases hlt
      | failed q now h _ _ _ _ => rw [hs] at h; cases h
      | done q d pl now h _ _ _ _ _ => rw [hs] at h; cases h
    refine ⟨?_, ?_⟩
    · intro s p' hp'
      cases micro_slot hmic hn s with
      | none h h' => rw [h'] at hp'; cases hp'
      | kept q q' h h' hs =>
        rw [h'] at hp'; cases hp'
        obtain ⟨p, h2, h3⟩ := hp s q h
        exact ⟨p, h2, h3.trans hs⟩
      | started q ak h h' hw hlt => cases hlt
      | failed q now h h' hw he hlt => rw [h'] at hp'; cases hp'
      | done q d pl now h h' hd hw he hlt => rw [h'] at hp'; cases hp'
    · have hle : (K.plus cfg e op a).Le (K.plus cfg e op b) :=
        ⟨fun _ h => h, fun i k h => h.imp id (fun ⟨s, p, now, h1, h2, h3, h4, h5⟩ => ⟨s, p, now, h1, h2, h3, hnone s h4, h5⟩),
          fun _ _ h => h⟩
      refine mid_micro (hsane b) LI LA (hi.mono (Facts.le_plus K e op b)) (ho.mono (Facts.le_plus K e op b)) hgone hg hn ?_
        hmic (fun hc => ⟨(hM hc).1.mono hle, (hM hc).2.1, (hM hc).2.2.mono (fun x hx => ⟨hx.1.mono hle, hx.2⟩)⟩)
      intro s p' now hp' hk hw _ hb
      obtain ⟨p, h2, h3⟩ := hp s p' hp'
      exact .inr ⟨s, p, now, h2, by rw [← h3.kind]; exact hk, h3.failWhy hw, hb, by rw [h3.target], by rw [h3.inc]⟩
  · rintro a rfl _ _ ⟨_, hM⟩; exact hM
  · intro a b hg hn hM hmic
    exact mid_micro (hsane _) LI LA (hi.mono (Facts.le_plus K e op _)) (ho.mono (Facts.le_plus K e op _)) hgone hg hn
      (fun _ _ _ _ _ _ hl => by cases hl) hmic hM

/-- Once a call has ended the probes it ends, it asks no relays any more. -/
theorem late_direct {op : Op I A} {a b : Ep I A} (hm : Micro cfg env op true a b) {s : Nat} {q p' : Probe I A} {d : Nat}
    (hd : q.phase = .direct d) (h : a.net.probes.get? s = some q) (h' : b.net.probes.get? s = some p') :
    ∃ d, p'.phase = .direct d := by
  have same : b.net.probes = a.net.probes → ∃ d, p'.phase = .direct d := by
    intro e; rw [e, h] at h'; cases h'; exact ⟨d, hd⟩
  have mod : ∀ s' (f : Probe I A → Probe I A), b.net.probes = a.net.probes.modify s' f →
      (a.net.probes.get? s' = some q → ∃ d, (f q).phase = .direct d) → ∃ d, p'.phase = .direct d := by
    intro s' f e hf
    rw [e, Map.get?_modify, h] at h'
    split at h'
    · rename_i hs; subst hs
      cases h'; exact hf h
    · cases h'; exact ⟨d, hd⟩
  cases hm with
  | aux _ hc hs hf hu => exact same hs.probes
  | start s' p ak hs hr hw hlt =>
    have hfree := (allocSeq_spec hs).2.2.1
    dsimp only at h'
    rw [Map.get?_insert, if_neg (by rintro rfl; rw [hfree] at h; cases h), h] at h'
    cases h'; exact ⟨d, hd⟩
  | dispatched s' b hlt => exact mod s' (fun p => { p with dispatched := b }) rfl (fun _ => ⟨d, hd⟩)
  | fail s' p now hp hw hr hlt => cases hlt
  | done s' p direct payload now hp hd hw hr hlt => cases hlt
  | fan s' p now peers st ho hp hk hph hd hf hl hnd ha hfit hlt => cases hlt
  | nack src s' now ho =>
    revert same mod h'
    unfold handleNack
    split
    · exact fun _ hs _ => hs rfl
    · rename_i p hp
      split
      · exact fun _ hs _ => hs rfl
      · split
        · rename_i ex ps nb st d' hph
          split
          · refine fun _ _ hm => hm s' (fun p => { p with phase := .indirect ex ps (nb ++ [src]) st d' }) rfl ?_
            intro hq
            rw [hp] at hq; cases hq
            rw [hph] at hd; cases hd
          · exact fun _ hs _ => hs rfl
        · exact fun _ hs _ => hs rfl
  | retire s' =>
    refine mod s' (fun p => match p.phase with
      | .indirect ex ps nb _ d => { p with phase := .indirect ex ps nb none d }
      | .direct _ => p) rfl (fun _ => ?_)
    rw [hd]
    exact ⟨d, hd⟩
  | gossip targets now ho hr =>
    obtain ⟨ts, h1, _⟩ := sendAll_net (a.drainGossip cfg env).1 targets (a.drainGossip cfg env).2
    exact same (by rw [h1, (drainGossip_net a).1])
  | leave now f ho hr =>
    obtain ⟨ts, h1⟩ := leaveWith_net (cfg := cfg) (env := env) a now f hr
    exact same (by rw [h1])
  | poll ho => exact same (by rw [pollTransmit_net])
  | _ => exact same rfl

/-- A probe that is gone when a call has ended the probes it ends, is not pending after the call, unless a new one
with its number was started by the call: that one is a direct one. -/
theorem step_gone {e : Ep I A} (h : Reachable cfg env e) (op : Op I A) {s : Nat}
    (hs : (stepEnds cfg env e op).net.probes.get? s = none) {p' : Probe I A}
    (hp : pending (e.step cfg env op).1 s = some p') : ∃ d, p'.phase = .direct d := by
  have key : ∀ p', (e.step cfg env op).1.net.probes.get? s = some p' → ∃ d, p'.phase = .direct d := by
    refine step_micro_induct2 (Q := fun _ => True) (R := fun b => ∀ p', b.net.probes.get? s = some p' →
      ∃ d, p'.phase = .direct d) h op trivial (fun _ _ _ _ _ _ => trivial) ?_ ?_
    · rintro a rfl _ _ _ p' hp'; rw [hs] at hp'; cases hp'
    · intro a b hg hn hR hmic p' hp'
      cases micro_slot hmic hn s with
      | none h h' => rw [h'] at hp'; cases hp'
      | kept q q' h h' hs =>
        rw [h'] at hp'; cases hp'
        obtain ⟨d, hd⟩ := hR q h
        rcases hs.direct with h4 | h4
        · exact ⟨d, (h4 d).2 hd⟩
        · exact late_direct hmic hd h h'
      | started q ak h h' hw hlt =>
        rw [h'] at hp'; cases hp'
        rcases hw with ⟨node, now, _, _, rfl⟩ | ⟨m, now, _, _, _, rfl⟩ <;> exact ⟨_, rfl⟩
      | failed q now h h' hw he hlt => rw [h'] at hp'; cases hp'
      | done q d pl now h h' hd hw he hlt => rw [h'] at hp'; cases hp'
  exact key p' hp

end Verif.Cluster
