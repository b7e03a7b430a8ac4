import Verif.Proof.Dials
import Verif.Proof.Service
import Verif.Proof.RelayFacts
/-
What happens when a probe gets no direct answer: relays are asked and a reliable ping is requested.
-/
namespace Verif.Ep
open Verif Core Spec
variable {I A : Type} [DecidableEq I] [DecidableEq A]
variable {cfg : Cfg I A} {env : Env I A}

/-! ### What does not change while timers are serviced -/

theorem micro_disabled {op : Op I A} {late : Bool} {a b : Ep I A} (hm : Micro cfg env op late a b) :
    DisabledStep op a b := by
  cases hm with
  | aux _ hc hn hf hu hp => exact hp.2
  | fail seq p now hp hw hr hlt =>
    left
    rw [terminate_net a seq now p hp]; unfold discardProbe; dsimp only; split <;> rfl
  | done seq p direct payload now hp hd hw hr hlt =>
    left
    rw [complete_net a seq now direct payload p hp hd]
  | nack src seq now ho => left; unfold handleNack; (repeat' split) <;> rfl
  | retire seq => left; unfold retireFallback; rfl
  | gossip targets now ho hr =>
    obtain ⟨ts, h5, _, h6⟩ := sendAll_net (a.drainGossip cfg env).1 targets (a.drainGossip cfg env).2
    left
    rw [h5, (drainGossip_net a).1]
  | leave now f ho hr =>
    obtain ⟨ts, hts⟩ := leaveWith_net (cfg := cfg) (env := env) a now f hr
    left; rw [hts]
  | poll ho => left; rw [pollTransmit_net]
  | _ => exact .inl rfl

/-- No member becomes alive. -/
def AliveOnly (a b : Ep I A) : Prop :=
  ∀ id m', b.core.members.get id = some m' → m'.state = .alive →
    ∃ m, a.core.members.get id = some m ∧ m.state = .alive ∧ m.server.addr = m'.server.addr

theorem AliveOnly.refl (a : Ep I A) : AliveOnly a a := fun _ m' h hs => ⟨m', h, hs, rfl⟩

theorem AliveOnly.trans {a b c : Ep I A} (h1 : AliveOnly a b) (h2 : AliveOnly b c) : AliveOnly a c := by
  intro id m' h hs
  obtain ⟨m, h3, h4, h5⟩ := h2 id m' h hs
  obtain ⟨m0, h6, h7, h8⟩ := h1 id m h3 h4
  exact ⟨m0, h6, h7, h8.trans h5⟩

theorem micro_aliveOnly {now : Nat} {late : Bool} {a b : Ep I A} (hg : Good cfg a.core)
    (hm : Micro cfg env (.timeout now) late a b) : AliveOnly a b := by
  refine (micro_actsOf hm).inductGood (Q := fun c => ∀ id m', c.members.get id = some m' → m'.state = .alive →
    ∃ m, a.core.members.get id = some m ∧ m.state = .alive ∧ m.server.addr = m'.server.addr) hg
    (fun id m' h hs => ⟨m', h, hs, rfl⟩) ?_
  intro c x hx hc ih id m' h hs
  have hch := act_change (cfg := cfg) (env := env) hc x id
  rw [h] at hch
  generalize ho : c.members.get id = o at hch
  cases hch with
  | same => exact ih id m' ho hs
  | confirm s t m su su' d h1 h2 h3 h4 h5 h6 =>
    obtain ⟨m0, q1, q2, q3⟩ := ih id _ ho hs
    exact ⟨m0, q1, q2, q3⟩
  | refuted x m acc h1 h2 h3 h4 =>
    obtain ⟨m0, q1, q2, q3⟩ := ih id _ ho hs
    exact ⟨m0, q1, q2, q3⟩
  | suspected => cases hs
  | killed d t m h1 h2 h3 h4 h5 h6 =>
    dsimp only at hs
    split at hs <;> cases hs
  | expired => cases hs
  | newer a ok off t m => cases hx with | remoteAlive r tk off hn hr hs' => cases hr
  | reclaimed a ok off t m => cases hx with | remoteAlive r tk off hn hr hs' => cases hr
  | new a ok off t => cases hx with | remoteAlive r tk off hn hr hs' => cases hr
  | metadata md m => cases hx
  | left t m => cases hx

/-- The facts about one elementary step of a timer call. -/
structure TimeStep (now : Nat) (a b : Ep I A) : Prop where
  ids : IdsStep a b
  alive : AliveOnly a b
  disabled : b.net.reliableDisabled = a.net.reliableDisabled
  fb : FbOk a.net → FbOk b.net
  keep : FbOk a.net → ∀ id i, a.net.intents.get? id = some i → now < i.deadline → b.net.intents.get? id = some i
  dials : ∀ x ∈ dialQ a, x ∈ dialQ b

theorem TimeStep.refl (now : Nat) (a : Ep I A) : TimeStep now a a :=
  ⟨.refl a, .refl a, rfl, id, fun _ _ _ h _ => h, fun _ h => h⟩

theorem TimeStep.trans {now : Nat} {a b c : Ep I A} (h1 : TimeStep now a b) (h2 : TimeStep now b c) : TimeStep now a c :=
  ⟨h1.ids.trans h2.ids, h1.alive.trans h2.alive, h2.disabled.trans h1.disabled, fun h => h2.fb (h1.fb h),
    fun hf id i h hd => h2.keep (h1.fb hf) id i (h1.keep hf id i h hd) hd, fun x h => h2.dials x (h1.dials x h)⟩

theorem micro_time {now : Nat} {late : Bool} {a b : Ep I A} (hg : Good cfg a.core) (hn : NetOk cfg a.net)
    (hm : Micro cfg env (.timeout now) late a b) : TimeStep now a b := by
  refine ⟨micro_ids hn hm, micro_aliveOnly hg hm, ?_, fun h => h.micro hn hm, ?_, ?_⟩
  · rcases micro_disabled hm with h | ⟨id, h | h⟩
    · exact h
    · cases h
    · cases h
  · intro hf id i hi hd
    rcases micro_ends hn hf hm hi with h | ⟨_, ⟨t, h⟩ | h | ⟨t, f, h⟩ | ⟨t, h, hle⟩⟩
    · exact h
    · cases h
    · cases h
    · cases h
    · simp only [Op.probeTime, Option.some.injEq] at h; omega
  · intro x hx
    rcases micro_dials (by simp) (by simp) hg hm with h | ⟨_, t, f, h⟩ | ⟨i, _, rfl⟩ | ⟨id, peer, d, h⟩
    · rw [h]; exact hx
    · cases h
    · unfold dialQ at hx ⊢
      unfold pushEvent addIntent
      rw [List.filterMap_append]
      exact List.mem_append_left _ hx
    · cases h

theorem micros_time {now : Nat} {late : Bool} {a b : Ep I A} (hg : Good cfg a.core) (hn : NetOk cfg a.net)
    (hm : Micros cfg env (.timeout now) late a b) : TimeStep now a b ∧ Good cfg b.core ∧ NetOk cfg b.net :=
  micros_induct (Q := fun x => TimeStep now a x ∧ Good cfg x.core ∧ NetOk cfg x.net) hm hg hn ⟨.refl now a, hg, hn⟩
    (fun _ _ hg hn hq hm => ⟨hq.1.trans (micro_time hg hn hm), micro_good hm hg, hn.micro hm⟩)

/-! ### The requests to relays -/

theorem snd_asks {now : Nat} {e : Ep I A} {t : Transmit I A} (h : Snd cfg env (.timeout now) e t) (seq : Nat) :
    asksRelay seq t = false := by
  cases h with
  | probe op now' ho e dst msg h hm =>
    rcases hm with ⟨p, rfl⟩ | ⟨s, rfl⟩ <;> rfl
  | probeBoth => rfl
  | user dst data op ho => rfl

theorem gossip_asks {m : Message I A} (h : GossipMsg m) (seq : Nat) (dst : A) :
    asksRelay seq (.packet dst m) = false := by
  rcases h with ⟨id, hc⟩ | ⟨b, rfl⟩
  · cases m with
    | indirectPing q => rcases hc with ⟨_, h, _⟩ | ⟨_, h, _⟩ | ⟨_, h, _⟩ <;> cases h
    | _ => rfl
  · rfl

theorem micro_asks {now : Nat} {late : Bool} {a b : Ep I A} (hc : ClaimsOk env a.core.bcast)
    (hm : Micro cfg env (.timeout now) late a b) (seq : Nat) :
    ∃ l, b.net.transmits = a.net.transmits ++ l ∧ (l.filter (asksRelay seq) = [] ∨
      (∃ q, b.net.probes.get? seq = some q ∧ (∀ d, q.phase ≠ .direct d) ∧
       ∃ p d, a.net.probes.get? seq = some p ∧ p.phase = .direct d)) := by
  have nil : b.net.transmits = a.net.transmits → ∃ l, b.net.transmits = a.net.transmits ++ l ∧
      (l.filter (asksRelay seq) = [] ∨ (∃ q, b.net.probes.get? seq = some q ∧ (∀ d, q.phase ≠ .direct d) ∧
       ∃ p d, a.net.probes.get? seq = some p ∧ p.phase = .direct d)) :=
    fun h => ⟨[], by rw [h, List.append_nil], .inl rfl⟩
  cases hm with
  | aux _ hc hn hf hu => exact nil hn.transmits
  | send t ht => exact ⟨[t], rfl, .inl (by simp [snd_asks ht])⟩
  | fail seq p now hp hw hr hlt =>
    refine nil ?_
    rw [terminate_net a seq now p hp, discard_transmits]
  | done seq p direct payload now hp hd hw hr hlt =>
    refine nil ?_
    rw [complete_net a seq now direct payload p hp hd]
  | nack src seq now ho => exact nil (handleNack_transmits _ _ _ _)
  | fan s p now peers st ho hp hk hph hd hf hl hnd ha hfit hlt =>
    refine ⟨peers.map (fun x => .packet x (relayRequest cfg s p)), rfl, ?_⟩
    by_cases hs : s = seq
    · subst hs
      right
      obtain ⟨d, hd⟩ := hph
      refine ⟨{ p with dispatched := true, phase := .indirect peers.length peers [] st p.failureDeadline }, ?_, ?_,
        p, d, hp, hd⟩
      · dsimp only
        rw [Map.get?_modify, if_pos rfl, hp]
        rfl
      · nofun
    · left
      rw [List.filter_eq_nil_iff]
      intro t ht
      obtain ⟨x, _, rfl⟩ := List.mem_map.1 ht
      simp [asksRelay, relayRequest, hs]
  | fwdAnswer s f hf payload now ho hd => exact ⟨[_], rfl, .inl rfl⟩
  | fwdExpire s f hf now ho hd => exact ⟨[_], rfl, .inl rfl⟩
  | gossip targets now ho hr =>
    obtain ⟨ts, h1, _, h3⟩ := sendAll_net (a.drainGossip cfg env).1 targets (a.drainGossip cfg env).2
    refine ⟨ts, by rw [h1, (drainGossip_net a).1], .inl ?_⟩
    rw [List.filter_eq_nil_iff]
    intro t ht
    obtain ⟨dst, hd⟩ := h3 t ht
    have hmsg := drainGossip_msgs (cfg := cfg) hc
    generalize (a.drainGossip cfg env).2 = ms at hd hmsg
    match ms, hd with
    | [m], hd =>
      cases hd
      rw [gossip_asks (hmsg m (by simp))]; simp
    | m :: m' :: ms, hd => cases hd; simp [asksRelay]
  | leave now f ho hr => cases ho
  | poll ho => cases ho
  | _ => exact nil rfl

/-! ### New stream requests -/

theorem micro_newIntent {op : Op I A} {late : Bool} {a b : Ep I A} (hm : Micro cfg env op late a b) {id : Nat} {i : Intent A}
    (hi : b.net.intents.get? id = some i) : a.net.intents.get? id = some i ∨ IntentWhy cfg env op a i := by
  have same : b.net.intents = a.net.intents → (a.net.intents.get? id = some i ∨ IntentWhy cfg env op a i) :=
    fun h => .inl (by rw [← h]; exact hi)
  cases hm with
  | aux _ hc hs hf hu => exact same hs.intents
  | fail s p now hp hw hr hlt =>
    obtain ⟨_, h2⟩ := discard_intents a.net s p
    rw [terminate_net a s now p hp] at hi
    rcases h2 id with h3 | ⟨_, h3⟩
    · rw [h3] at hi; exact .inl hi
    · rw [h3] at hi; cases hi
  | done s p d pl now hp hd hw hr hlt => exact same (by rw [complete_net a s now _ _ p hp hd])
  | nack src s now ho => exact same (handleNack_intents _ _ _ _).2
  | intent j hr hw =>
    unfold addIntent insertIntent at hi
    dsimp only at hi
    rw [Map.get?_insert] at hi
    split at hi
    · cases hi; exact .inr hw
    · exact .inl hi
  | intentDial j hr hw =>
    unfold pushEvent addIntent insertIntent at hi
    dsimp only at hi
    rw [Map.get?_insert] at hi
    split at hi
    · cases hi; exact .inr hw
    · exact .inl hi
  | unintent id' hw =>
    unfold removeIntent at hi
    dsimp only at hi
    rw [Map.get?_erase] at hi
    split at hi
    · cases hi
    · exact .inl hi
  | gossip targets now ho hr =>
    obtain ⟨ts, h1, _⟩ := sendAll_net (a.drainGossip cfg env).1 targets (a.drainGossip cfg env).2
    exact same (by rw [h1, (drainGossip_net a).1])
  | leave now f ho hr =>
    obtain ⟨ts, h1⟩ := leaveWith_net (cfg := cfg) (env := env) a now f hr
    rw [h1] at hi; cases hi
  | poll ho => exact same (by rw [pollTransmit_net])
  | _ => exact same rfl

theorem intentWhy_reliable {now : Nat} {a : Ep I A} {i : Intent A} {seq : Nat} (h : IntentWhy cfg env (.timeout now) a i)
    (hk : i.kind = .reliablePing seq) : ∃ q, a.net.probes.get? seq = some q ∧ q.target.id ∉ a.net.reliableDisabled := by
  cases h with
  | pushPull => cases hk
  | user => cases hk
  | reliable pid peer s d ho =>
    cases hk
    rcases ho with h | h | ⟨t, q, _, hq, _, rfl, _, _, hd⟩
    · cases h
    · cases h
    · exact ⟨q, hq, hd⟩

/-- Reliable pings under this number that were not requested before. -/
def NoNew (seq : Nat) (a b : Ep I A) : Prop :=
  ∀ id i, b.net.intents.get? id = some i → i.kind = .reliablePing seq → a.net.intents.get? id = some i

/-! ### Before the probe turns to relays -/

/-- Nothing was sent or requested for the probe. -/
structure Untouched (seq : Nat) (p : Probe I A) (a b : Ep I A) : Prop where
  pending : ∃ q, b.net.probes.get? seq = some q ∧ SameProbe p q ∧ ∃ d, q.phase = .direct d
  quiet : ∃ l, b.net.transmits = a.net.transmits ++ l ∧ l.filter (asksRelay seq) = []
  noNew : p.target.id ∈ a.net.reliableDisabled → NoNew seq a b

/-- The probe does not wait for a direct answer. -/
def Touched (seq : Nat) (b : Ep I A) : Prop := ∀ q, b.net.probes.get? seq = some q → ∀ d, q.phase ≠ .direct d

theorem untouched_micros {now : Nat} {a b : Ep I A} (hg : Good cfg a.core) (hn : NetOk cfg a.net)
    (hc : ClaimsOk env a.core.bcast) {seq : Nat} {p : Probe I A} {d : Nat} (hp : a.net.probes.get? seq = some p)
    (hd : p.phase = .direct d) (hm : Micros cfg env (.timeout now) false a b) :
    Untouched seq p a b ∨ Touched seq b := by
  have key := micros_induct (Q := fun b => ClaimsOk env b.core.bcast ∧ b.net.reliableDisabled = a.net.reliableDisabled ∧
    (Untouched seq p a b ∨ Touched seq b)) hm hg hn
    ⟨hc, rfl, .inl ⟨⟨p, hp, .refl p, d, hd⟩, ⟨[], by simp, rfl⟩, fun _ _ _ h _ => h⟩⟩ ?_
  · exact key.2.2
  · rintro x y hgx hnx ⟨hcx, hdx, hq⟩ hxy
    have hdis := (micro_time hgx hnx hxy).disabled
    refine ⟨micro_claims hxy hgx hcx, hdis.trans hdx, ?_⟩
    rcases hq with hu | ht
    · obtain ⟨⟨q, hq, hsame, d', hd'⟩, ⟨l, hl, hlf⟩, hno⟩ := hu
      by_cases hdir : ∃ q' d', y.net.probes.get? seq = some q' ∧ q'.phase = .direct d'
      · obtain ⟨q', d'', hq', hd''⟩ := hdir
        left
        refine ⟨⟨q', hq', ?_, d'', hd''⟩, ?_, ?_⟩
        · cases micro_slot hxy hnx seq with
          | none h h' => rw [h'] at hq'; cases hq'
          | kept r r' h h' hs =>
            rw [hq] at h; cases h
            rw [hq'] at h'; cases h'
            exact hsame.trans hs.toSameProbe
          | started r ak h h' hw hlt => cases hlt
          | failed r t h h' hw he hlt => rw [h'] at hq'; cases hq'
          | done r dr pl t h h' hdd hw he hlt => rw [h'] at hq'; cases hq'
        · obtain ⟨l2, hl2, h2⟩ := micro_asks hcx hxy seq
          refine ⟨l ++ l2, by rw [hl2, hl, List.append_assoc], ?_⟩
          rw [List.filter_append, hlf, List.nil_append]
          rcases h2 with h2 | ⟨r, hr, hnd, _⟩
          · exact h2
          · rw [hq'] at hr; cases hr
            exact absurd hd'' (hnd d'')
        · intro ho id i hi hk
          rcases micro_newIntent hxy hi with h | h
          · exact hno ho id i h hk
          · obtain ⟨r, hr, hnd⟩ := intentWhy_reliable h hk
            rw [hq] at hr; cases hr
            rw [hdx, hsame.target] at hnd
            exact absurd ho hnd
      · right
        intro q' hq' d'' hd''
        exact hdir ⟨q', d'', hq', hd''⟩
    · right
      intro q' hq' d'' hd''
      cases micro_slot hxy hnx seq with
      | none h h' => rw [h'] at hq'; cases hq'
      | kept r r' h h' hs =>
        rw [hq'] at h'; cases h'
        rcases hs.direct with h1 | h1
        · exact ht r h d'' ((h1 d'').1 hd'')
        · exact h1.2 d'' hd''
      | started r ak h h' hw hlt => cases hlt
      | failed r t h h' hw he hlt => rw [h'] at hq'; cases hq'
      | done r dr pl t h h' hdd hw he hlt => rw [h'] at hq'; cases hq'

/-! ### After the probe turned to relays -/

/-- The probe waits for its relays and its reliable ping. -/
structure Waits (seq : Nat) (p : Probe I A) (peers : List A) (a b : Ep I A) : Prop where
  pending : ∃ q, b.net.probes.get? seq = some q ∧ SameProbe p q ∧ relaysOf q = peers ∧ nackersOf q = [] ∧
    ∀ d, q.phase ≠ .direct d
  quiet : ∃ l, b.net.transmits = a.net.transmits ++ l ∧ l.filter (asksRelay seq) = []
  noNew : p.target.id ∈ a.net.reliableDisabled → NoNew seq a b

theorem waits_micro {now : Nat} {late : Bool} {seq : Nat} {p : Probe I A} {peers : List A} {a x y : Ep I A}
    (hf : now < p.failureDeadline)
    (hgx : Good cfg x.core) (hnx : NetOk cfg x.net) (hcx : ClaimsOk env x.core.bcast)
    (hdx : x.net.reliableDisabled = a.net.reliableDisabled) (h : Waits seq p peers a x)
    (hxy : Micro cfg env (.timeout now) late x y) : Waits seq p peers a y := by
  obtain ⟨⟨q, hq, hsame, hrel, hnk, hnd⟩, ⟨l, hl, hlf⟩, hno⟩ := h
  refine ⟨?_, ?_, ?_⟩
  · cases micro_slot hxy hnx seq with
    | none h h' => rw [hq] at h; cases h
    | kept r r' h h' hs =>
      rw [hq] at h; cases h
      refine ⟨r', h', hsame.trans hs.toSameProbe, ?_, ?_, ?_⟩
      · rw [relaysOf_eq] at hrel ⊢
        rcases hs.asked with h1 | ⟨⟨_, _, _, d, hd⟩, _⟩
        · rw [h1, hrel]
        · exact absurd hd (hnd d)
      · rcases hs.nack with h1 | ⟨src, t, h1⟩
        · rw [h1, hnk]
        · cases h1
      · intro d hd
        rcases hs.direct with h1 | ⟨_, h1⟩
        · exact hnd d ((h1 d).1 hd)
        · exact h1 d hd
    | started r ak h h' hw hlt => rw [hq] at h; cases h
    | failed r t h h' hw he hlt =>
      rw [hq] at h; cases h
      exfalso
      have ht : t = now := by have := hw.1; simp only [Op.probeTime, Option.some.injEq] at this; exact this.symm
      rcases hw.2 with h1 | ⟨_, _, d, h1⟩
      · rw [hsame.deadline] at h1; omega
      · exact hnd d h1
    | done r dr pl t h h' hdd hw he hlt =>
      rcases hw with ⟨src, h1, _⟩ | ⟨⟨t', h1⟩, _⟩ <;> cases h1
  · obtain ⟨l2, hl2, h2⟩ := micro_asks hcx hxy seq
    refine ⟨l ++ l2, by rw [hl2, hl, List.append_assoc], ?_⟩
    rw [List.filter_append, hlf, List.nil_append]
    rcases h2 with h2 | ⟨r, hr, _, r', d, hr', hd⟩
    · exact h2
    · rw [hq] at hr'; cases hr'
      exact absurd hd (hnd d)
  · intro ho id i hi hk
    rcases micro_newIntent hxy hi with h | h
    · exact hno ho id i h hk
    · obtain ⟨r, hr, hnd'⟩ := intentWhy_reliable h hk
      rw [hq] at hr; cases hr
      rw [hdx, hsame.target] at hnd'
      exact absurd ho hnd'

theorem waits_micros {now : Nat} {late : Bool} {seq : Nat} {p : Probe I A} {peers : List A} {a x y : Ep I A}
    (hf : now < p.failureDeadline)
    (hgx : Good cfg x.core) (hnx : NetOk cfg x.net) (hcx : ClaimsOk env x.core.bcast)
    (hdx : x.net.reliableDisabled = a.net.reliableDisabled) (h : Waits seq p peers a x)
    (hxy : Micros cfg env (.timeout now) late x y) :
    Waits seq p peers a y ∧ ClaimsOk env y.core.bcast ∧ y.net.reliableDisabled = a.net.reliableDisabled :=
  micros_induct (Q := fun y => Waits seq p peers a y ∧ ClaimsOk env y.core.bcast ∧
    y.net.reliableDisabled = a.net.reliableDisabled) hxy hgx hnx ⟨h, hcx, hdx⟩
    (fun _ _ hg hn hq hm => ⟨waits_micro hf hg hn hq.2.1 hq.2.2 hq.1 hm, micro_claims hm hg hq.2.1,
      ((micro_time hg hn hm).disabled).trans hq.2.2⟩)

/-! ### After the probe failed -/

/-- What is pending under the number was started at this time. -/
def Restarted (now seq : Nat) (b : Ep I A) : Prop := ∀ q, b.net.probes.get? seq = some q → q.sentAt = now

theorem restarted_micros {now : Nat} {late : Bool} {seq : Nat} {x y : Ep I A}
    (hgx : Good cfg x.core) (hnx : NetOk cfg x.net) (h : Restarted now seq x)
    (hxy : Micros cfg env (.timeout now) late x y) : Restarted now seq y := by
  refine micros_induct (Q := fun y => Restarted now seq y) hxy hgx hnx h ?_
  intro a b hg hn hq hm q hqb
  cases micro_slot hm hn seq with
  | none h h' => rw [h'] at hqb; cases hqb
  | kept r r' h h' hs => rw [h'] at hqb; cases hqb; rw [hs.sentAt]; exact hq r h
  | started r ak h h' hw hlt =>
    rw [h'] at hqb; cases hqb
    rcases hw with ⟨node, t, ho, _⟩ | ⟨m, t, _, ho, _, rfl⟩
    · cases ho
    · rcases ho with ho | ho
      · cases ho
      · cases ho; rfl
  | failed r t h h' hw he hlt => rw [h'] at hqb; cases hqb
  | done r dr pl t h h' hdd hw he hlt => rw [h'] at hqb; cases hqb

/-! ### The escalation itself -/

/-- The reliable ping requested for a probe. -/
def fallbackIntent (cfg : Cfg I A) (env : Env I A) (seq : Nat) (p : Probe I A) : Intent A :=
  { peer := p.target.addr, kind := .reliablePing seq, deadline := p.failureDeadline
    encoded := encodeBytes env (.ping { seq, source := localNode cfg, target := { id := p.target.id, addr := p.target.addr } }) }

/-- What escalating a probe does. -/
structure Fans (cfg : Cfg I A) (env : Env I A) (now seq : Nat) (p : Probe I A) (m x : Ep I A) : Prop where
  gone : p.target.id ∈ m.net.reliableDisabled →
    (fitsMtu cfg env (relayRequest cfg seq p) = true → 0 < cfg.indirectChecks →
      relayCandidates m.core.members cfg.advertise p.target.addr = []) → x.net.probes.get? seq = none
  waits : (p.target.id ∈ m.net.reliableDisabled → fitsMtu cfg env (relayRequest cfg seq p) = true ∧ 0 < cfg.indirectChecks ∧
      relayCandidates m.core.members cfg.advertise p.target.addr ≠ []) →
    ∃ peers : List A, peers.Nodup ∧ peers.length ≤ cfg.indirectChecks ∧
      (∀ a ∈ peers, a ∈ relayCandidates m.core.members cfg.advertise p.target.addr) ∧
      (fitsMtu cfg env (relayRequest cfg seq p) = true →
        peers.length = min cfg.indirectChecks (relayCandidates m.core.members cfg.advertise p.target.addr).length) ∧
      (peers ≠ [] → fitsMtu cfg env (relayRequest cfg seq p) = true) ∧
      (∃ q, x.net.probes.get? seq = some q ∧ SameProbe p q ∧ relaysOf q = peers ∧ nackersOf q = [] ∧
        ∀ d, q.phase ≠ .direct d) ∧
      x.net.transmits = m.net.transmits ++ peers.map (fun a => .packet a (relayRequest cfg seq p)) ∧
      x.core.members = m.core.members ∧
      (p.target.id ∈ m.net.reliableDisabled → x.net.intents = m.net.intents) ∧
      (p.target.id ∉ m.net.reliableDisabled →
        x.net.intents.get? m.net.nextStreamId = some (fallbackIntent cfg env seq p) ∧
        (m.net.nextStreamId, p.target.addr, p.failureDeadline) ∈ dialQ x)

theorem terminate_gone {e : Ep I A} {seq now : Nat} {p : Probe I A} (hp : e.net.probes.get? seq = some p) :
    (e.probeTerminateFailure cfg env seq now).net.probes.get? seq = none := by
  rw [terminate_net e seq now p hp, discard_probes, Map.get?_erase, if_pos rfl]

theorem fanOut_fans {m : Ep I A} {seq now d : Nat} {p : Probe I A} (hr : m.core.lifecycle = .running)
    (hp : m.net.probes.get? seq = some p) (hd : p.phase = .direct d) (hf : now < p.failureDeadline) :
    Fans cfg env now seq p m (m.fanOut cfg env seq now) := by
  obtain ⟨hnd, hlen, hmem⟩ := pickRandom_spec (k := cfg.indirectChecks) (σ := env.tape m.tick)
    (relayCandidates_nodup m.core.members cfg.advertise p.target.addr)
  have hleq := pickRandom_length (relayCandidates m.core.members cfg.advertise p.target.addr) cfg.indirectChecks
    (env.tape m.tick)
  unfold fanOut
  rw [hp]
  dsimp only
  rw [if_neg (by omega)]
  generalize hch : pickRandom (relayCandidates m.core.members cfg.advertise p.target.addr) cfg.indirectChecks
    (env.tape m.tick) = chosen at *
  unfold fanOutTo
  dsimp only
  rw [askRelays_spec, askRelays_state]
  rw [List.nil_append]
  have hrel : (Message.indirectPing { seq, source := localNode cfg, target := { id := p.target.id, addr := p.target.addr } } :
      Message I A) = relayRequest cfg seq p := rfl
  rw [hrel]
  generalize hpe : (if fitsMtu cfg env (relayRequest cfg seq p) = true then chosen else []) = peers
  have p1 : peers.Nodup := by rw [← hpe]; split; exacts [hnd, List.nodup_nil]
  have p2 : peers.length ≤ cfg.indirectChecks := by rw [← hpe]; split; exacts [hlen, Nat.zero_le _]
  have p3 : ∀ a ∈ peers, a ∈ relayCandidates m.core.members cfg.advertise p.target.addr := by
    rw [← hpe]; split; exacts [hmem, nofun]
  have p4 : fitsMtu cfg env (relayRequest cfg seq p) = true →
        peers.length = min cfg.indirectChecks (relayCandidates m.core.members cfg.advertise p.target.addr).length := by
    intro h; rw [← hpe, if_pos h]; exact hleq
  have p5 : peers ≠ [] → fitsMtu cfg env (relayRequest cfg seq p) = true := by
    intro h
    by_contra hn
    rw [if_neg hn] at hpe
    exact h hpe.symm
  by_cases ho : p.target.id ∈ m.net.reliableDisabled
  · have hfb : m.tickUp.startFallback cfg env p seq = (m.tickUp, none) := by
      unfold startFallback; exact if_pos ho
    rw [hfb]
    dsimp only
    constructor
    · intro _ hno
      have hpn : peers = [] := by
        by_contra hne
        have hfit := p5 hne
        have := p4 hfit
        rcases Nat.eq_zero_or_pos cfg.indirectChecks with h0 | h0
        · exact hne (List.length_eq_zero_iff.1 (by rw [h0] at p2; omega))
        · rw [hno hfit h0] at this
          exact hne (List.length_eq_zero_iff.1 (by simpa using this))
      rw [if_pos (by rw [hpn]; rfl)]
      exact terminate_gone hp
    · intro hw
      obtain ⟨w1, w2, w3⟩ := hw ho
      have hpn : peers ≠ [] := by
        intro hn
        have := p4 w1
        rw [hn] at this
        have h3 := List.length_pos_iff.2 w3
        simp only [List.length_nil] at this
        omega
      rw [if_neg (by cases peers with | nil => exact absurd rfl hpn | cons => simp)]
      refine ⟨peers, p1, p2, p3, p4, p5, ⟨{ p with dispatched := true, phase := .indirect peers.length peers [] none p.failureDeadline }, ?_, ⟨rfl, rfl, rfl, rfl, rfl, rfl⟩, rfl, rfl, nofun⟩,
        rfl, rfl, fun _ => rfl, fun h => absurd ho h⟩
      dsimp only
      rw [Map.get?_modify, if_pos rfl]
      show Option.map _ (m.net.probes.get? seq) = _
      rw [hp]
      rfl
  · have hfb : m.tickUp.startFallback cfg env p seq = (pushEvent { m.tickUp with net := { insertIntent
        { m.net with nextStreamId := m.net.nextStreamId + 1 } m.net.nextStreamId (fallbackIntent cfg env seq p) with
          nextStreamId := m.net.nextStreamId + 1 } } (.dialRequested m.net.nextStreamId p.target.addr p.failureDeadline), some m.net.nextStreamId) := by
      unfold startFallback
      rw [if_neg (show ¬ p.target.id ∈ m.tickUp.net.reliableDisabled from ho)]
      unfold startReliablePing startReliablePingDirect
      dsimp only
      rw [if_neg (by simp [isRunning, tickUp, hr])]
      rfl
    rw [hfb]
    dsimp only
    constructor
    · intro h; exact absurd h ho
    · intro _
      rw [if_neg (by simp)]
      refine ⟨peers, p1, p2, p3, p4, p5, ⟨{ p with dispatched := true, phase := .indirect peers.length peers [] (some m.net.nextStreamId) p.failureDeadline }, ?_, ⟨rfl, rfl, rfl, rfl, rfl, rfl⟩, rfl, rfl, nofun⟩,
        rfl, rfl, fun h => absurd h ho, fun _ => ⟨?_, ?_⟩⟩
      · dsimp only
        rw [Map.get?_modify, if_pos rfl]
        show Option.map _ (m.net.probes.get? seq) = _
        rw [hp]
        rfl
      · show (m.net.intents.insert _ _).get? _ = _
        rw [Map.get?_insert, if_pos rfl]
      · unfold dialQ pushEvent
        dsimp only
        rw [List.filterMap_append]
        exact List.mem_append_right _ (by simp [dialOf])

/-! ### Where in a timer call a probe is escalated -/

theorem advance_split (e : Ep I A) (now : Nat) (hr : e.core.lifecycle = .running) (hn : e.net.probes.NodupKeys)
    {seq : Nat} {p : Probe I A} (hp : e.net.probes.get? seq = some p) (hdue : probeDue cfg p now = some true) :
    ∃ m, Micros cfg env (.timeout now) false e m ∧ m.core.lifecycle = .running ∧ m.net.probes.get? seq = some p ∧
      Micros cfg env (.timeout now) false (m.fanOut cfg env seq now) (e.advanceProbes cfg env now) := by
  unfold advanceProbes
  dsimp only
  have hperm := env.order_perm e.tick (e.net.probes.map Prod.fst)
  have hk : (env.order e.tick (e.net.probes.map Prod.fst)).Nodup := hperm.nodup_iff.2 hn
  have hin : seq ∈ env.order e.tick (e.net.probes.map Prod.fst) :=
    hperm.mem_iff.2 (List.mem_map.2 ⟨(seq, p), Map.mem_of_get? hp, rfl⟩)
  generalize env.order e.tick (e.net.probes.map Prod.fst) = keys at hk hin
  have hstep : ∀ (e' : Ep I A) (s : Nat), s ∈ (keys.filter (fun s => match e.net.probes.get? s with
      | some p => probeDue cfg p now == some true
      | none => false)) → e'.core.lifecycle = .running → e'.net.probes.get? s = e.net.probes.get? s →
      Micros cfg env (.timeout now) false e' (e'.fanOut cfg env s now) := fun e' s hs hr' he' => by
      simp only [List.mem_filter] at hs
      cases hp : e.net.probes.get? s with
      | none => rw [hp] at hs; simp at hs
      | some p =>
        rw [hp] at hs he'
        exact fanOut_micros e' s now p rfl hr' he' (by simpa using hs.2) rfl
  have hmem : seq ∈ (keys.filter (fun s => match e.net.probes.get? s with
      | some p => probeDue cfg p now == some true
      | none => false)) := by
    rw [List.mem_filter]
    exact ⟨hin, by rw [hp]; simp [hdue]⟩
  have hndt := hk.filter (fun s => match e.net.probes.get? s with
      | some p => probeDue cfg p now == some true
      | none => false)
  have hfalse : ∀ s ∈ (keys.filter (fun s => match e.net.probes.get? s with
      | some p => probeDue cfg p now == some false
      | none => false)), s ∉ (keys.filter (fun s => match e.net.probes.get? s with
      | some p => probeDue cfg p now == some true
      | none => false)) := by
    intro s hs hs'
    simp only [List.mem_filter] at hs hs'
    cases hp : e.net.probes.get? s with
    | none => rw [hp] at hs; simp at hs
    | some p =>
      rw [hp] at hs hs'
      have a := hs.2; have b := hs'.2
      simp only [beq_iff_eq] at a b
      rw [a] at b; cases b
  generalize (keys.filter (fun s => match e.net.probes.get? s with
      | some p => probeDue cfg p now == some true
      | none => false)) = due at hstep hmem hndt hfalse ⊢
  obtain ⟨pre, suf, rfl⟩ := List.append_of_mem hmem
  rw [List.foldl_append, List.foldl_cons]
  have hd1 := List.nodup_append.1 hndt
  have hd2 := List.nodup_cons.1 hd1.2.1
  have h1 := micros_keyed (cfg := cfg) (env := env) (op := .timeout now) (late := false) (fun e s => e.net.probes.get? s)
    (fun e s => e.fanOut cfg env s now) (fun s => e.net.probes.get? s)
    (fun e s s' h => fanOut_other e s now s' h) (fun e s => fanOut_lifecycle e s now)
    pre hd1.1 (fun e' s hs => hstep e' s (by simp [hs])) e.tickUp hr (fun s _ => rfl)
  have hpre : seq ∉ pre := fun h => hd1.2.2 seq h seq (by simp) rfl
  refine ⟨_, (micros_aux (e := e) (e' := e.tickUp) rfl rfl rfl).trans h1.1, h1.2.1, (h1.2.2 seq hpre).trans hp, ?_⟩
  have hbase : ∀ s, s ∉ pre → s ≠ seq → ((pre.foldl (fun e s => e.fanOut cfg env s now) e.tickUp).fanOut cfg env seq
      now).net.probes.get? s = e.net.probes.get? s := fun s hs hs' =>
    (fanOut_other _ seq now s hs').trans (h1.2.2 s hs)
  generalize hM : pre.foldl (fun e s => e.fanOut cfg env s now) e.tickUp = M at h1 hbase ⊢
  have h2 := micros_keyed (cfg := cfg) (env := env) (op := .timeout now) (late := false) (fun e s => e.net.probes.get? s)
    (fun e s => e.fanOut cfg env s now) (fun s => e.net.probes.get? s)
    (fun e s s' h => fanOut_other e s now s' h) (fun e s => fanOut_lifecycle e s now)
    suf hd2.2 (fun e' s hs => hstep e' s (by simp [hs])) (M.fanOut cfg env seq now)
    (by rw [fanOut_lifecycle]; exact h1.2.1)
    (fun s hs => hbase s (fun h => hd1.2.2 s h s (by simp [hs]) rfl) (by rintro rfl; exact hd2.1 hs))
  have h3 := micros_keyed (cfg := cfg) (env := env) (op := .timeout now) (late := false) (fun e s => e.net.probes.get? s)
    (fun e s => e.probeTerminateFailure cfg env s now) (fun s => e.net.probes.get? s)
    (fun e s s' h => terminate_other e s now s' h) (fun e s => terminate_lifecycle e s now)
    (keys.filter (fun s => match e.net.probes.get? s with
      | some p => probeDue cfg p now == some false
      | none => false)) (hk.filter _)
    (fun e' s hs hr' he' => by
      simp only [List.mem_filter] at hs
      cases hp : e.net.probes.get? s with
      | none => rw [hp] at hs; simp at hs
      | some p =>
        rw [hp] at hs he'
        have hdf := due_false (cfg := cfg) (p := p) (now := now) (by simpa using hs.2)
        refine .of (.fail e' s p now he' ⟨rfl, ?_⟩ hr' rfl ?_)
        · rcases hdf with h | h
          · exact .inl h
          · exact .inr ⟨rfl, h.1, h.2.1⟩
        · intro h1 h2
          rcases hdf with h | h
          · omega
          · rw [h.2.2] at h2; cases h2)
    _ h2.2.1 (fun s hs => by
      have hns := hfalse s hs
      simp only [List.mem_append, List.mem_cons, not_or] at hns
      exact (h2.2.2 s hns.2.2).trans (hbase s hns.1 hns.2.1))
  exact h2.1.trans h3.1

theorem timeout_fan (e : Ep I A) (now : Nat) (hl : e.core.lifecycle = .running) (hn : e.net.probes.NodupKeys)
    (hf : e.net.forwards.NodupKeys) {seq : Nat} {p : Probe I A} (hp : e.net.probes.get? seq = some p)
    (hdue : probeDue cfg p now = some true) :
    ∃ m y, Micros cfg env (.timeout now) false e m ∧ m.core.lifecycle = .running ∧ m.net.probes.get? seq = some p ∧
      Micros cfg env (.timeout now) false (m.fanOut cfg env seq now) y ∧
      Micros cfg env (.timeout now) true y (e.handleTimeout cfg env now) := by
  have r0 : (e.core.fireExpiredSuspicions cfg env now).lifecycle = .running := by
    rw [fireExpired_lifecycle _ (by simp [hl])]; exact hl
  have h0 : Micros cfg env (.timeout now) false e { e with core := e.core.fireExpiredSuspicions cfg env now } := by
    refine micros_core (Acts.one (.expire now) (.expire now) ?_) rfl rfl
    simp only [act, hl, if_true]
  obtain ⟨m, m1, m2, m3, m4⟩ := advance_split (cfg := cfg) (env := env)
    ({ e with core := e.core.fireExpiredSuspicions cfg env now } : Ep I A) now r0 hn hp hdue
  have h1 := advanceProbes_micros (cfg := cfg) (env := env) (op := .timeout now) (late := false)
    { e with core := e.core.fireExpiredSuspicions cfg env now } now rfl r0 hn rfl
  have h2 := fireExpiredForwards_micros (cfg := cfg) (env := env) (op := .timeout now) (late := false)
    (({ e with core := e.core.fireExpiredSuspicions cfg env now } : Ep I A).advanceProbes cfg env now) now rfl h1.2
    (by rw [advanceProbes_forwards]; exact hf)
  refine ⟨m, timeoutEnds cfg env e now, h0.trans m1, m2, m3,
    m4.trans (h2.trans (fireExpiredIntents_micros _ now rfl)), ?_⟩
  rw [handleTimeout_eq e now hl]
  exact timeoutStarts_micros _ now rfl (timeoutEnds_micros (cfg := cfg) (env := env) (op := .timeout now) e now rfl hl hn hf).2

/-! ### The whole call -/

theorem due_true {p : Probe I A} {now d : Nat} (hk : p.kind = .detection) (hd : p.phase = .direct d)
    (ht : p.sentAt + cfg.probeTimeout ≤ now) (hf : now < p.failureDeadline) : probeDue cfg p now = some true := by
  unfold probeDue
  rw [hd]
  dsimp only
  rw [if_neg (by omega), if_pos (by unfold Probe.directDeadline; exact ht), hk]

theorem couldRelay_back {a b : Ep I A} {p : Probe I A} {x : A} (h : AliveOnly a b) (hc : CouldRelay cfg b p x) :
    CouldRelay cfg a p x := by
  obtain ⟨h1, h2, id, m, h3, h4, h5⟩ := hc
  obtain ⟨m0, g1, g2, g3⟩ := h id m ((member_eq _ _).symm.trans h3) h4
  exact ⟨h1, h2, id, m0, (member_eq _ _).trans g1, g2, g3.trans h5⟩

theorem couldRelay_iff {a : Ep I A} (hg : Good cfg a.core) {p : Probe I A} {x : A} :
    x ∈ relayCandidates a.core.members cfg.advertise p.target.addr ↔ CouldRelay cfg a p x := by
  rw [mem_relayCandidates]
  constructor
  · rintro ⟨⟨m, hm, hs, ha⟩, h1, h2⟩
    exact ⟨h1, h2, m.id, m, (member_eq _ _).trans ((Table.get_iff hg.inv.nodup).2 ⟨hm, rfl⟩), hs, ha⟩
  · rintro ⟨h1, h2, id, m, h3, h4, h5⟩
    exact ⟨⟨m, ((Table.get_iff hg.inv.nodup).1 ((member_eq _ _).symm.trans h3)).1, h4, h5⟩, h1, h2⟩

/-- What servicing the timers does to a probe that is due for escalation. -/
structure Escalated (cfg : Cfg I A) (env : Env I A) (seq : Nat) (p : Probe I A) (e e' : Ep I A) (p' : Probe I A) : Prop where
  pending : pending e' seq = some p'
  same : SameProbe p p'
  fresh : nackersOf p' = []
  nodup : (relaysOf p').Nodup
  bound : (relaysOf p').length ≤ cfg.indirectChecks
  could : ∀ a ∈ relaysOf p', CouldRelay cfg e p a
  enough : wireLen env.CI env.CA (askFor cfg seq p) ≤ cfg.gossipMtu → ∀ L : List A, L.Nodup →
    (∀ a ∈ L, CouldRelay cfg e' p a) → min cfg.indirectChecks L.length ≤ (relaysOf p').length
  asked : ∃ l, e'.net.transmits = e.net.transmits ++ l ∧
    l.filter (asksRelay seq) = (relaysOf p').map (fun a => .packet a (askFor cfg seq p))
  fits : relaysOf p' ≠ [] → wireLen env.CI env.CA (askFor cfg seq p) ≤ cfg.gossipMtu
  out : optedOut e p.target.id → NoNew seq e e'
  stream : ¬ optedOut e p.target.id → ∃ id, waiting e id = none ∧ waiting e' id = some (fallbackIntent cfg env seq p) ∧
    (id, p.target.addr, p.failureDeadline) ∈ dialQ e'

theorem handleTimeout_escalates {e : Ep I A} (h : Reachable cfg env e) (hr : e.core.lifecycle = .running) {seq now d : Nat}
    {p : Probe I A} (hp : e.net.probes.get? seq = some p) (hk : p.kind = .detection) (hd : p.phase = .direct d)
    (ht : p.sentAt + cfg.probeTimeout ≤ now) (hf : now < p.failureDeadline) :
    ((optedOut e p.target.id → wireLen env.CI env.CA (askFor cfg seq p) ≤ cfg.gossipMtu ∧ 0 < cfg.indirectChecks ∧
        ∃ a, CouldRelay cfg (e.handleTimeout cfg env now) p a) →
      ∃ p', Escalated cfg env seq p e (e.handleTimeout cfg env now) p') ∧
    (optedOut e p.target.id → (wireLen env.CI env.CA (askFor cfg seq p) ≤ cfg.gossipMtu → 0 < cfg.indirectChecks →
        ∀ a, ¬ CouldRelay cfg e p a) → Restarted now seq (e.handleTimeout cfg env now)) := by
  have hg := reachable_good h
  have hn := reachable_netOk h
  have hfb := reachable_fb h
  have hc := reachable_claims h
  obtain ⟨m, y, h1, hmr, hmp, h2, h3⟩ := timeout_fan (cfg := cfg) (env := env) e now hr hn.pn hn.fn hp
    (due_true hk hd ht hf)
  have hwl : ∀ {P : Prop}, (fitsMtu cfg env (relayRequest cfg seq p) = true → P) ↔
      (wireLen env.CI env.CA (askFor cfg seq p) ≤ cfg.gossipMtu → P) := by
    intro P; unfold fitsMtu; simp only [decide_eq_true_eq]; rfl
  have hwl' : fitsMtu cfg env (relayRequest cfg seq p) = true ↔ wireLen env.CI env.CA (askFor cfg seq p) ≤ cfg.gossipMtu := by
    unfold fitsMtu; simp only [decide_eq_true_eq]; rfl
  obtain ⟨t1, hgm, hnm⟩ := micros_time hg hn h1
  have hfan := fanOut_micros (cfg := cfg) (env := env) (op := .timeout now) (late := false) m seq now p rfl hmr hmp
    (due_true hk hd ht hf) rfl
  obtain ⟨t2, hgx, hnx⟩ := micros_time hgm hnm hfan
  obtain ⟨t3, hgy, hny⟩ := micros_time hgx hnx h2
  obtain ⟨t4, hge, hne⟩ := micros_time hgy hny h3
  have t34 := t3.trans t4
  have claims : ∀ {late : Bool} {a b : Ep I A}, Good cfg a.core → NetOk cfg a.net →
      Micros cfg env (.timeout now) late a b → ClaimsOk env a.core.bcast → ClaimsOk env b.core.bcast :=
    fun hg hn hm h0 => micros_induct (Q := fun b => ClaimsOk env b.core.bcast) hm hg hn h0
      (fun _ _ hg _ hq hm => micro_claims hm hg hq)
  have hcx := claims hgm hnm hfan (claims hg hn h1 hc)
  have hF := fanOut_fans (cfg := cfg) (env := env) hmr hmp hd hf
  have hU : Untouched seq p e m := by
    rcases untouched_micros hg hn hc hp hd h1 with hu | htch
    · exact hu
    · exact absurd hd (htch p hmp d)
  have hout : optedOut e p.target.id ↔ p.target.id ∈ m.net.reliableDisabled := by
    unfold optedOut; rw [t1.disabled]
  constructor
  · intro hyp
    obtain ⟨peers, q1, q2, q3, q4, q5, q6, q7, q8, q9, q10⟩ := hF.waits (by
      intro ho
      obtain ⟨w1, w2, a, w3⟩ := hyp (hout.2 ho)
      refine ⟨hwl'.2 w1, w2, ?_⟩
      have hca : a ∈ relayCandidates m.core.members cfg.advertise p.target.addr := by
        rw [couldRelay_iff hgm]
        exact couldRelay_back (t2.trans t34).alive w3
      intro hnil
      rw [hnil] at hca
      cases hca)
    have hW0 : Waits seq p peers (m.fanOut cfg env seq now) (m.fanOut cfg env seq now) :=
      ⟨q6, ⟨[], by simp, rfl⟩, fun _ _ _ h _ => h⟩
    obtain ⟨hW1, hcy, hdy⟩ := waits_micros hf hgx hnx hcx rfl hW0 h2
    obtain ⟨⟨⟨p', r1, r2, r3, r4, r5⟩, ⟨l3, r6, r7⟩, r8⟩, hce, hde⟩ := waits_micros hf hgy hny hcy hdy hW1 h3
    refine ⟨p', r1, r2, r4, ?_, ?_, ?_, ?_, ?_, ?_, ?_, ?_⟩
    · rw [r3]; exact q1
    · rw [r3]; exact q2
    · rw [r3]
      intro a ha
      exact couldRelay_back t1.alive ((couldRelay_iff hgm).1 (q3 a ha))
    · rw [r3]
      intro hfit L hL hLc
      rw [q4 (hwl'.2 hfit)]
      have hsub : L ⊆ relayCandidates m.core.members cfg.advertise p.target.addr := fun a ha =>
        (couldRelay_iff hgm).2 (couldRelay_back (t2.trans t34).alive (hLc a ha))
      have := (List.subperm_of_subset hL hsub).length_le
      omega
    · rw [r3]
      obtain ⟨l1, u1, u2⟩ := hU.quiet
      refine ⟨l1 ++ peers.map (fun a => .packet a (relayRequest cfg seq p)) ++ l3, ?_, ?_⟩
      · rw [r6, q7, u1]; simp only [List.append_assoc]
      · rw [List.filter_append, List.filter_append, u2, r7, List.append_nil, List.nil_append]
        refine List.filter_eq_self.2 ?_
        intro t ht
        obtain ⟨a, _, rfl⟩ := List.mem_map.1 ht
        simp [asksRelay, relayRequest]
    · rw [r3]; exact fun hne => hwl'.1 (q5 hne)
    · intro ho id i hi hki
      have hod := hout.1 ho
      have hx := r8 (by rw [t2.disabled]; exact hod) id i hi hki
      rw [q9 hod] at hx
      exact hU.noNew ho id i hx hki
    · intro ho
      have hod : p.target.id ∉ m.net.reliableDisabled := fun hh => ho (hout.2 hh)
      obtain ⟨s1, s2⟩ := q10 hod
      refine ⟨m.net.nextStreamId, ?_, ?_, t34.dials _ s2⟩
      · cases hw : waiting e m.net.nextStreamId with
        | none => rfl
        | some i =>
          have l1 := (hn.ids _ _ hw).2
          have l2 := t1.ids.mono
          omega
      · exact t34.keep (t2.fb (t1.fb hfb)) _ _ s1 hf
  · intro ho hno
    have hx := hF.gone (hout.1 ho) (by
      intro hfit hpos
      rw [List.eq_nil_iff_forall_not_mem]
      intro a ha
      exact hno (hwl'.1 hfit) hpos a (couldRelay_back t1.alive ((couldRelay_iff hgm).1 ha)))
    have hx' : Restarted now seq (m.fanOut cfg env seq now) := by
      intro q hq; rw [hx] at hq; cases hq
    exact restarted_micros hgy hny (restarted_micros hgx hnx hx' h2) h3

end Verif.Ep
