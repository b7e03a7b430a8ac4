import Verif.Proof.Penalty
import Verif.Proof.RelayFacts
import Verif.Proof.Cache
import Verif.Spec.Node
/-
The deadlines of a node and what servicing the timers does to them.
-/
namespace Verif.Ep
open Verif Core Spec
variable {I A : Type} [DecidableEq I] [DecidableEq A]
variable {cfg : Cfg I A} {env : Env I A}

/-! ### Suspicions -/

theorem confirm_deadline {acc : Accel} {s s' : Suspicion I} {sender : I} {now d : Nat}
    (h : s.confirm acc sender now = (s', .accepted d)) : now ≤ s'.deadline := by
  unfold Suspicion.confirm at h
  split at h
  · cases h
  · split at h
    · cases h
    · cases h; exact Nat.le_add_right _ _

/-- The suspicions after a probe failed: those before, and that of its target, whose deadline is not in the past. -/
theorem terminate_susp {e : Ep I A} (hgood : Good cfg e.core) {seq now : Nat} {p : Probe I A}
    (hp : e.net.probes.get? seq = some p) {id : I} {m' : Member I A} {s : Suspicion I}
    (hm' : (e.probeTerminateFailure cfg env seq now).core.members.get id = some m') (hs : m'.susp = some s) :
    (∃ m, e.core.members.get id = some m ∧ m.susp = some s) ∨
      (p.kind = .detection ∧ p.target.id = id ∧ now ≤ s.deadline) := by
  unfold probeTerminateFailure at hm'
  rw [hp] at hm'
  dsimp only at hm'
  cases hk : p.kind with
  | ping => rw [hk] at hm'; exact .inl ⟨m', hm', hs⟩
  | detection =>
    rw [hk] at hm'
    dsimp only at hm'
    split at hm'
    · exact .inl ⟨m', hm', hs⟩
    · dsimp only at hm'
      split at hm'
      · have hc1 : Good cfg (bump { e.core with awareness := e.core.awareness.recordFailure (severity p) }) :=
          Good.act (env := env) hgood (.fail (severity p))
        have hch := act_change (env := env) hc1
          (.suspect { incarnation := p.targetIncarnation, node := p.target.id, src := cfg.localId } now) id
        simp only [Core.act] at hch
        rw [hm'] at hch
        have hb : (bump { e.core with awareness := e.core.awareness.recordFailure (severity p) }).members = e.core.members := rfl
        rw [hb] at hch
        revert hch
        generalize hoo : e.core.members.get id = o
        generalize hoo' : some m' = o'
        intro hch
        cases hch with
        | same => exact .inl ⟨m', hoo'.symm, hs⟩
        | confirm _ _ m susp susp' d h1 h2 h3 h4 h5 h6 =>
          cases hoo'
          cases hs
          exact .inr ⟨rfl, h1, confirm_deadline h6⟩
        | refuted _ m acc h1 h2 hacc =>
          cases hoo'
          exact .inl ⟨m, rfl, hs⟩
        | suspected _ _ m mn mx h1 h2 h3 h4 h5 h6 h7 =>
          cases hoo'
          cases hs
          exact .inr ⟨rfl, h1, Nat.le_add_right _ _⟩
      · exact .inl ⟨m', hm', hs⟩

/-- A failure-detection probe of `id` runs out when the timers are serviced. -/
def Blamed (cfg : Cfg I A) (e : Ep I A) (now : Nat) (id : I) : Prop :=
  ∃ seq p, pending e seq = some p ∧ p.kind = .detection ∧ p.target.id = id ∧ FailWhy cfg (.timeout now) p now

/-- The suspicions that are due after servicing timers. -/
def SuspOk (cfg : Cfg I A) (e : Ep I A) (now : Nat) (b : Ep I A) : Prop :=
  ∀ id m s, b.core.members.get id = some m → m.susp = some s →
    now < s.deadline ∨ (s.deadline = now ∧ Blamed cfg e now id)

theorem SuspOk.calm {e a b : Ep I A} {now : Nat} (h : SuspOk cfg e now a) (hg : Good cfg b.core)
    (hc : Calm a.core b.core) : SuspOk cfg e now b := by
  intro id m s hm hs
  rcases hc.2 id with h1 | ⟨m0, h3, h4 | ⟨m1, h4, h5⟩⟩
  · exact h id m s (by rw [← h1]; exact hm) hs
  · rw [h4] at hm; cases hm
  · rw [h4] at hm; cases hm
    have := (hg.inv.mem _ _ h4).susp.1 (by rw [hs]; rfl)
    rw [h5] at this; cases this

theorem timeout_susp {e : Ep I A} (h : Reachable cfg env e) (hl : e.core.lifecycle = .running) (now : Nat) :
    SuspOk cfg e now (e.step cfg env (.timeout now)).1 := by
  have hg := reachable_good h
  have hn := reachable_netOk h
  have hg1 : Good cfg (e.core.fireExpiredSuspicions cfg env now) := by
    have := hg.act (env := env) (.expire now)
    simp only [Core.act, hl, if_true] at this
    exact this
  have h0 : SuspOk cfg e now { e with core := e.core.fireExpiredSuspicions cfg env now } := by
    intro id m s hm hs
    rw [show ({ e with core := e.core.fireExpiredSuspicions cfg env now } : Ep I A).core =
      e.core.fireExpiredSuspicions cfg env now from rfl, fireExpired_get hg.inv hl] at hm
    cases hg0 : e.core.members.get id with
    | none => rw [hg0] at hm; cases hm
    | some m0 =>
      rw [hg0] at hm
      dsimp only at hm
      split at hm
      · cases hm; cases hs
      · rename_i hne
        cases hm
        left
        by_contra hle
        exact hne ((mem_expiredIds hg.inv).2 ⟨m, s, hg0, hs, by omega⟩)
  have ht := timeoutEnds_tail (cfg := cfg) (env := env) (op := .timeout now) e now rfl hl hn.pn hn.fn
  have hq : SuspOk cfg e now (timeoutEnds cfg env e now) ∧ Good cfg (timeoutEnds cfg env e now).core ∧
      NetOk cfg (timeoutEnds cfg env e now).net := by
    have := micros_induct (Q := fun b => ((∀ s p', b.net.probes.get? s = some p' →
        ∃ p, pending e s = some p ∧ Kept (.timeout now) false s p p') ∧ SuspOk cfg e now b) ∧ Good cfg b.core ∧
        NetOk cfg b.net) ht.1 hg1 hn ⟨⟨fun s p' hp => ⟨p', hp, .refl _⟩, h0⟩, hg1, hn⟩ ?_
    · exact ⟨this.1.2, this.2⟩
    · rintro a b hga hna ⟨⟨hp, hM⟩, _, _⟩ hmic
      have hgb := micro_good hmic hga
      refine ⟨⟨?_, ?_⟩, hgb, hna.micro hmic⟩
      · intro s p' hp'
        cases micro_slot hmic hna s with
        | none h h' => rw [h'] at hp'; cases hp'
        | kept q q' h h' hs =>
          rw [h'] at hp'; cases hp'
          obtain ⟨p, h2, h3⟩ := hp s q h
          exact ⟨p, h2, h3.trans hs⟩
        | started q ak h h' hw hlt => cases hlt
        | failed q now h h' hw he hlt => rw [h'] at hp'; cases hp'
        | done q d pl now h h' hd hw he hlt => rw [h'] at hp'; cases hp'
      · rcases micro_calm (by rfl) hga hmic with ⟨seq, p', t, hp', hw, _, _, rfl⟩ | ⟨seq, p', d, pl, t, hp', hd, hw, _, rfl⟩ | hcalm
        · obtain ⟨p, hpe, hk⟩ := hp seq p' hp'
          have ht : t = now := by have := hw.1; simpa [Op.probeTime] using this.symm
          subst ht
          intro id m s hm hs
          rcases terminate_susp (env := env) hga hp' hm hs with ⟨m0, h1, h2⟩ | ⟨h1, h2, h3⟩
          · exact hM id m0 s h1 h2
          · by_cases hlt : t < s.deadline
            · exact .inl hlt
            · exact .inr ⟨by omega, seq, p, hpe, by rw [← hk.kind]; exact h1, by rw [← hk.target]; exact h2, hk.failWhy hw⟩
        · have hc := done_core_members (cfg := cfg) (env := env) a seq t d pl p' hp' hd
          intro id m s hm hs
          exact hM id m s (by rw [← hc]; exact hm) hs
        · exact hM.calm hgb hcalm
  have hs := timeoutStarts_micros (cfg := cfg) (env := env) (op := .timeout now) (timeoutEnds cfg env e now) now rfl ht.2
  show SuspOk cfg e now (e.handleTimeout cfg env now)
  rw [handleTimeout_eq e now hl]
  refine (micros_induct (Q := fun b => SuspOk cfg e now b ∧ Good cfg b.core) hs hq.2.1 hq.2.2 ⟨hq.1, hq.2.1⟩ ?_).1
  rintro a b hga hna ⟨hM, _⟩ hmic
  have hgb := micro_good hmic hga
  refine ⟨?_, hgb⟩
  rcases micro_calm (by rfl) hga hmic with ⟨_, _, _, _, _, hl, _⟩ | ⟨_, _, _, _, _, _, _, _, hl, _⟩ | hcalm
  · cases hl
  · cases hl
  · exact hM.calm hgb hcalm

/-! ### Probes -/

theorem scaleTimeout_pos (a : Awareness) {t : Nat} (h : 0 < t) : 0 < a.scaleTimeout t := by
  unfold Awareness.scaleTimeout
  dsimp only
  split
  · exact Nat.mul_pos h (Nat.succ_pos _)
  · exact h

theorem pushPullScale_pos {t : Nat} (n : Nat) (h : 0 < t) : 0 < pushPullScale t n := by
  unfold pushPullScale
  split
  · exact h
  · dsimp only
    split
    · exact Nat.mul_pos h (Nat.succ_pos _)
    · exact h

omit [DecidableEq A] in
theorem other_probe {a b : Ep I A} (h : other a = other b) : a.nextProbe = b.nextProbe := congrArg (·.1) h
omit [DecidableEq A] in
theorem other_gossip {a b : Ep I A} (h : other a = other b) : a.nextGossip = b.nextGossip := congrArg (·.2.1) h
omit [DecidableEq A] in
theorem other_push {a b : Ep I A} (h : other a = other b) : a.nextPushPull = b.nextPushPull := congrArg (·.2.2.1) h

theorem gossip_next (e : Ep I A) (now : Nat) :
    (e.fireGossipScheduler cfg env now).nextProbe = e.nextProbe ∧
    (e.fireGossipScheduler cfg env now).nextPushPull = e.nextPushPull ∧
    (∀ d, (e.fireGossipScheduler cfg env now).nextGossip = some d → now < d ∨ d = now + cfg.gossipInterval) := by
  unfold fireGossipScheduler
  split
  · rename_i h
    exact ⟨rfl, rfl, fun d hd => by rw [h] at hd; cases hd⟩
  · rename_i d0 h
    split
    · rename_i hlt
      exact ⟨rfl, rfl, fun d hd => by rw [h] at hd; cases hd; exact .inl hlt⟩
    · dsimp only
      have hs := (sendAll_other
        (pickRandom (gossipCandidates cfg e.core.members now) cfg.gossipNodes (env.tape e.tick))
        (e.tickUp.drainGossip cfg env).2 (e.tickUp.drainGossip cfg env).1).trans (drainGossip_other e.tickUp)
      split
      · exact ⟨rfl, rfl, fun d hd => .inr (Option.some.inj hd).symm⟩
      · have h1 := other_probe hs
        have h2 := other_push hs
        exact ⟨h1, h2, fun d hd => .inr (Option.some.inj hd).symm⟩

theorem push_next (e : Ep I A) (now : Nat) :
    (e.firePushPullScheduler cfg env now).nextProbe = e.nextProbe ∧
    (e.firePushPullScheduler cfg env now).nextGossip = e.nextGossip ∧
    (∀ d, (e.firePushPullScheduler cfg env now).nextPushPull = some d →
      now < d ∨ ∃ n, d = now + pushPullScale cfg.pushPullInterval n) := by
  unfold firePushPullScheduler
  split
  · rename_i h
    exact ⟨rfl, rfl, fun d hd => by rw [h] at hd; cases hd⟩
  · rename_i d0 h
    split
    · rename_i hlt
      exact ⟨rfl, rfl, fun d hd => by rw [h] at hd; cases hd; exact .inl hlt⟩
    · dsimp only
      split
      · exact ⟨rfl, rfl, fun d hd => .inr ⟨_, (Option.some.inj hd).symm⟩⟩
      · rename_i peer l hpk
        have hs := startPushPull_other (cfg := cfg) (env := env) e.tickUp peer .refresh now
        have h1 := other_probe hs
        have h2 := other_gossip hs
        exact ⟨h1, h2, fun d hd => .inr ⟨_, (Option.some.inj hd).symm⟩⟩

theorem probe_next (e : Ep I A) (now : Nat) :
    ∀ d, (e.fireProbeScheduler cfg env now).nextProbe = some d → now < d ∨ d = now + cfg.probeInterval := by
  unfold fireProbeScheduler
  split
  · rename_i h
    exact fun d hd => by rw [h] at hd; cases hd
  · rename_i d0 h
    split
    · rename_i hlt
      exact fun d hd => by rw [h] at hd; cases hd; exact .inl hlt
    · exact fun d hd => .inr (Option.some.inj hd).symm

theorem starts_next (e : Ep I A) (now : Nat) :
    (timeoutStarts cfg env e now).nextProbe = (e.fireProbeScheduler cfg env now).nextProbe ∧
    (∀ d, (timeoutStarts cfg env e now).nextGossip = some d → now < d ∨ d = now + cfg.gossipInterval) ∧
    (∀ d, (timeoutStarts cfg env e now).nextPushPull = some d →
      now < d ∨ ∃ n, d = now + pushPullScale cfg.pushPullInterval n) := by
  unfold timeoutStarts
  have hc : ∀ e : Ep I A, e.refreshCache.nextProbe = e.nextProbe ∧ e.refreshCache.nextGossip = e.nextGossip ∧
      e.refreshCache.nextPushPull = e.nextPushPull := by
    intro e; unfold refreshCache; split <;> exact ⟨rfl, rfl, rfl⟩
  obtain ⟨a1, a2, a3⟩ := hc (((e.fireProbeScheduler cfg env now).fireGossipScheduler cfg env now).firePushPullScheduler cfg env now)
  obtain ⟨b1, b2, b3⟩ := push_next (cfg := cfg) (env := env) ((e.fireProbeScheduler cfg env now).fireGossipScheduler cfg env now) now
  obtain ⟨c1, c2, c3⟩ := gossip_next (cfg := cfg) (env := env) (e.fireProbeScheduler cfg env now) now
  exact ⟨by rw [a1, b1, c1], fun d hd => c3 d (by rw [← b2, ← a2]; exact hd), fun d hd => b3 d (by rw [← a3]; exact hd)⟩

/-- After servicing the timers the schedules lie ahead. -/
theorem timeout_schedules {e : Ep I A} (h : Reachable cfg env e) (hl : e.core.lifecycle = .running) (now : Nat) :
    (∀ d, (e.step cfg env (.timeout now)).1.nextProbe = some d → now < d) ∧
    (∀ d, (e.step cfg env (.timeout now)).1.nextGossip = some d → now < d) ∧
    (∀ d, (e.step cfg env (.timeout now)).1.nextPushPull = some d → now < d) := by
  have ho := reachable_other (reachable_step h (.timeout now))
  have he : (e.step cfg env (.timeout now)).1 = timeoutStarts cfg env (timeoutEnds cfg env e now) now :=
    handleTimeout_eq e now hl
  obtain ⟨h1, h2, h3⟩ := starts_next (cfg := cfg) (env := env) (timeoutEnds cfg env e now) now
  refine ⟨fun d hd => ?_, fun d hd => ?_, fun d hd => ?_⟩
  · have := ho.probe (by rw [hd]; rfl)
    rw [he, h1] at hd
    rcases probe_next _ _ d hd with h | h <;> omega
  · have := ho.gossip (by rw [hd]; rfl)
    rw [he] at hd
    rcases h2 d hd with h | h <;> omega
  · have := ho.push (by rw [hd]; rfl)
    rw [he] at hd
    rcases h3 d hd with h | ⟨n, h⟩
    · exact h
    · have := pushPullScale_pos n this
      omega

/-- After servicing the timers the deadlines of the pending probes lie ahead. -/
theorem timeout_probes {e : Ep I A} (h : Reachable cfg env e) (hl : e.core.lifecycle = .running) (now : Nat)
    (hpt : 0 < cfg.probeTimeout) {seq : Nat} {p : Probe I A}
    (hp : pending (e.step cfg env (.timeout now)).1 seq = some p) : now < p.deadline ∧ now < p.failureDeadline := by
  have hn := reachable_netOk h
  have ho := reachable_other (reachable_step h (.timeout now))
  have he : (e.step cfg env (.timeout now)).1 = timeoutStarts cfg env (timeoutEnds cfg env e now) now :=
    handleTimeout_eq e now hl
  unfold pending at hp
  rw [he, (timeoutStarts_keeps _ _).1] at hp
  by_cases hnp : ((timeoutEnds cfg env e now).fireProbeScheduler cfg env now).nextProbe = none
  · have hsame : (timeoutEnds cfg env e now).fireProbeScheduler cfg env now = timeoutEnds cfg env e now := by
      revert hnp
      unfold fireProbeScheduler
      split
      · exact fun _ => rfl
      · split
        · exact fun _ => rfl
        · intro hnp; cases hnp
    rw [hsame] at hp
    exact ends_serviced e now hn hp
  · have hi : 0 < cfg.probeInterval := by
      refine ho.probe ?_
      rw [he, (starts_next _ _).1]
      exact Option.isSome_iff_ne_none.2 hnp
    rcases fireProbeScheduler_pending _ _ _ hp with hq | ⟨m, b, _, _, _, rfl⟩
    · exact ends_serviced e now hn hq
    · have := scaleTimeout_pos ((timeoutEnds cfg env e now).fireProbeScheduler cfg env now).core.awareness hi
      simp only [Probe.newDirect, Probe.deadline, Nat.lt_min]
      omega

/-! ### Dials -/

theorem dropIntent_intents (n : Net I A) (id id' : Nat) :
    (dropIntent n id).intents.get? id' = if id = id' then none else n.intents.get? id' := by
  unfold dropIntent
  split
  · rename_i h
    split
    · rename_i he; rw [← he]; exact h
    · rfl
  · have : (removeIntent n id).intents.get? id' = if id = id' then none else n.intents.get? id' := by
      unfold removeIntent; rw [Map.get?_erase]
    dsimp only
    split
    · exact this
    · exact this

theorem fireExpiredIntents_intents (e : Ep I A) (now : Nat) {id : Nat} {i : Intent A}
    (h : (e.fireExpiredIntents env now).net.intents.get? id = some i) :
    e.net.intents.get? id = some i ∧ now < i.deadline := by
  unfold fireExpiredIntents at h
  dsimp only at h
  have key : ∀ (l : List Nat) (e : Ep I A),
      (l.foldl (fun e id => ({ e with net := dropIntent e.net id } : Ep I A)) e).net.intents.get? id =
      if id ∈ l then none else e.net.intents.get? id := by
    intro l
    induction l with
    | nil => intro e; simp
    | cons x l ih =>
      intro e
      rw [List.foldl_cons, ih]
      dsimp only
      rw [dropIntent_intents]
      by_cases h1 : id ∈ l
      · simp [h1]
      · by_cases h2 : x = id
        · simp [h2]
        · simp [h1, h2, Ne.symm h2]
  rw [key] at h
  split at h
  · cases h
  · rename_i hnm
    refine ⟨h, ?_⟩
    by_contra hle
    apply hnm
    rw [(env.order_perm _ _).mem_iff]
    exact List.mem_map.2 ⟨(id, i), List.mem_filter.2 ⟨Map.mem_of_get? h, by simpa using Nat.le_of_not_lt hle⟩, rfl⟩

theorem startProbe_intents (e : Ep I A) (now : Nat) : (e.startProbe cfg env now).1.net.intents = e.net.intents := by
  have h : ∀ (e : Ep I A) m seq, (e.sendProbe cfg env m seq).1.net.intents = e.net.intents := by
    intro e m seq
    have h : ∀ (e : Ep I A) a x, (e.pushWithinMtu cfg env a x).1.net.intents = e.net.intents := by
      intro e a x; unfold pushWithinMtu; split <;> rfl
    unfold sendProbe
    split
    · dsimp only
      split
      · rfl
      · dsimp only; rw [h, h]
    · rw [h]
  unfold startProbe
  split
  · rfl
  · split
    · rfl
    · dsimp only
      split
      · rfl
      · dsimp only
        rw [h]

theorem starts_intents (e : Ep I A) (now : Nat) {id : Nat} {i : Intent A}
    (h : (timeoutStarts cfg env e now).net.intents.get? id = some i) :
    e.net.intents.get? id = some i ∨ i.deadline = now + cfg.streamTimeout := by
  have h1 : (e.fireProbeScheduler cfg env now).net.intents = e.net.intents := by
    unfold fireProbeScheduler
    split
    · rfl
    · split
      · rfl
      · dsimp only
        rw [startProbe_intents]
        split <;> rfl
  have h2 : ∀ e : Ep I A, (e.fireGossipScheduler cfg env now).net.intents = e.net.intents := by
    intro e
    unfold fireGossipScheduler
    split
    · rfl
    · split
      · rfl
      · dsimp only
        split
        · rfl
        · have hs : ∀ (l : List A) (e : Ep I A) msgs, (e.sendAll l msgs).net.intents = e.net.intents := by
            intro l
            unfold sendAll
            induction l with
            | nil => intro e _; rfl
            | cons a l ih =>
              intro e msgs
              rw [List.foldl_cons, ih]
              split <;> rfl
          dsimp only
          rw [hs, (drainGossip_net _).1]; rfl
  have h3 : ∀ e : Ep I A, (e.firePushPullScheduler cfg env now).net.intents.get? id = some i →
      e.net.intents.get? id = some i ∨ i.deadline = now + cfg.streamTimeout := by
    intro e h
    unfold firePushPullScheduler at h
    split at h
    · exact .inl h
    · split at h
      · exact .inl h
      · dsimp only at h
        split at h
        · exact .inl h
        · unfold startPushPull startPushPullDirect at h
          dsimp only at h
          split at h
          · exact .inl h
          · simp only [requestDial, pushEvent, insertIntent] at h
            rw [Map.get?_insert] at h
            split at h
            · cases h; exact .inr rfl
            · exact .inl h
  have h4 : ∀ e : Ep I A, e.refreshCache.net = e.net := by
    intro e; unfold refreshCache; split <;> rfl
  unfold timeoutStarts at h
  rw [h4] at h
  rw [← h1, ← h2 (e.fireProbeScheduler cfg env now)]
  exact h3 _ h

/-- After servicing the timers the deadlines of the dials under way lie ahead. -/
theorem timeout_dials {e : Ep I A} (hl : e.core.lifecycle = .running) (now : Nat)
    (hst : 0 < cfg.streamTimeout) {id : Nat} {i : Intent A}
    (hi : (e.step cfg env (.timeout now)).1.net.intents.get? id = some i) : now < i.deadline := by
  have he : (e.step cfg env (.timeout now)).1 = timeoutStarts cfg env (timeoutEnds cfg env e now) now :=
    handleTimeout_eq e now hl
  rw [he] at hi
  rcases starts_intents _ _ hi with h | h
  · exact (fireExpiredIntents_intents _ _ h).2
  · omega

/-! ### The next deadline -/

theorem foldl_minOpt (l : List (Option Nat)) : ∀ a,
    (l.foldl minOpt a = none ↔ a = none ∧ ∀ x ∈ l, x = none) ∧
    (∀ t, l.foldl minOpt a = some t → (a = some t ∨ some t ∈ l) ∧ (∀ t', a = some t' ∨ some t' ∈ l → t ≤ t')) := by
  induction l with
  | nil =>
    intro a
    refine ⟨by simp, fun t h => ⟨.inl h, fun t' h' => ?_⟩⟩
    rcases h' with h' | h'
    · rw [List.foldl_nil] at h; rw [h] at h'; cases h'; exact Nat.le_refl _
    · cases h'
  | cons x l ih =>
    intro a
    rw [List.foldl_cons]
    obtain ⟨i1, i2⟩ := ih (minOpt a x)
    refine ⟨?_, fun t h => ?_⟩
    · rw [i1]
      cases a <;> cases x <;> simp [minOpt]
    · obtain ⟨j1, j2⟩ := i2 t h
      refine ⟨?_, fun t' h' => ?_⟩
      · rcases j1 with j1 | j1
        · cases a with
          | none => simp only [minOpt] at j1; right; rw [j1]; simp
          | some a =>
            cases x with
            | none => simp only [minOpt] at j1; left; exact j1
            | some x =>
              simp only [minOpt, Option.some.injEq] at j1
              rcases Nat.le_total a x with hle | hle
              · rw [Nat.min_eq_left hle] at j1; left; rw [j1]
              · rw [Nat.min_eq_right hle] at j1; right; rw [j1]; simp
        · right; exact List.mem_cons_of_mem _ j1
      · have key : ∀ u, (a = some u ∨ x = some u) → t ≤ u := by
          intro u hu
          cases a with
          | none =>
            rcases hu with hu | hu
            · cases hu
            · exact j2 u (.inl (by simp [minOpt, hu]))
          | some a =>
            cases x with
            | none =>
              rcases hu with hu | hu
              · exact j2 u (.inl (by simp only [minOpt]; exact hu))
              · cases hu
            | some x =>
              have := j2 (min a x) (.inl rfl)
              rcases hu with hu | hu <;> cases hu
              · exact Nat.le_trans this (Nat.min_le_left _ _)
              · exact Nat.le_trans this (Nat.min_le_right _ _)
        rcases h' with h' | h'
        · exact key t' (.inl h')
        · rcases List.mem_cons.1 h' with h' | h'
          · exact key t' (.inr h'.symm)
          · exact j2 t' (.inr h')

/-- The candidates for the next deadline. -/
theorem pollTimeout_mem {e : Ep I A} (h : Reachable cfg env e) (t : Nat) :
    (some t ∈ [e.core.suspIdx.earliest,
      (e.net.probes.map (fun p => some p.2.deadline)).foldl minOpt none,
      (e.net.forwards.map (fun f => some f.2.deadline)).foldl minOpt none,
      e.net.intentIdx.earliest, e.nextProbe, e.nextGossip, e.nextPushPull] → Due cfg e t) ∧
    (Due cfg e t → ∃ t' ≤ t, some t' ∈ [e.core.suspIdx.earliest,
      (e.net.probes.map (fun p => some p.2.deadline)).foldl minOpt none,
      (e.net.forwards.map (fun f => some f.2.deadline)).foldl minOpt none,
      e.net.intentIdx.earliest, e.nextProbe, e.nextGossip, e.nextPushPull]) := by
  have hg := reachable_good h
  have hn := reachable_netOk h
  have foldl_some : ∀ (l : List (Option Nat)) d, some d ∈ l → ∃ t' ≤ d, l.foldl minOpt none = some t' := by
    intro l d hd
    obtain ⟨h1, h2⟩ := foldl_minOpt l none
    cases hf : l.foldl minOpt none with
    | none => have := (h1.1 hf).2 _ hd; cases this
    | some t' => exact ⟨t', (h2 t' hf).2 d (.inr hd), rfl⟩
  have pdl : ∀ seq p, e.net.probes.get? seq = some p → p.deadline ≤ p.failureDeadline ∧
      (∀ d, p.phase = .direct d → p.deadline ≤ p.sentAt + cfg.probeTimeout) ∧ Due cfg e p.deadline := by
    intro seq p hp
    have hok := hn.ok seq p hp
    cases hph : p.phase with
    | direct d =>
      have hd := hok.direct d hph
      have hdl : p.deadline = min d p.failureDeadline := by unfold Probe.deadline; rw [hph]
      refine ⟨by rw [hdl]; exact Nat.min_le_right _ _, fun _ _ => by rw [hdl, ← hd]; exact Nat.min_le_left _ _, ?_⟩
      rw [hdl]
      rcases Nat.le_total d p.failureDeadline with hle | hle
      · rw [Nat.min_eq_left hle, hd]; exact .direct seq p d hp hph
      · rw [Nat.min_eq_right hle]; exact .probe seq p hp
    | indirect ex ps nb st d =>
      have hd := (hok.indirect _ _ _ _ _ hph).2.2.2.2.2.2.1
      have hdl : p.deadline = p.failureDeadline := by unfold Probe.deadline; rw [hph]; exact hd
      exact ⟨Nat.le_of_eq hdl, ⟨nofun, hdl ▸ .probe seq p hp⟩⟩
  constructor
  · intro hm
    simp only [List.mem_cons, List.not_mem_nil, or_false] at hm
    rcases hm with hm | hm | hm | hm | hm | hm | hm
    · obtain ⟨⟨id, hid⟩, _⟩ := (DeadlineIndex.earliest_spec hg.inv.idxInv t).1 hm.symm
      rw [hg.inv.dl] at hid
      cases hm0 : e.core.members.get id with
      | none => rw [hm0] at hid; cases hid
      | some m =>
        rw [hm0] at hid
        cases hs : m.susp with
        | none => simp [hs] at hid
        | some s =>
          simp [hs] at hid
          rw [← hid]; exact .suspicion id m s hm0 hs
    · have := ((foldl_minOpt _ none).2 t hm.symm).1
      rcases this with h | h
      · cases h
      · obtain ⟨⟨seq, p⟩, hp, hd⟩ := List.mem_map.1 h
        cases hd
        exact (pdl seq p (Map.get?_of_mem hn.pn hp)).2.2
    · have := ((foldl_minOpt _ none).2 t hm.symm).1
      rcases this with h | h
      · cases h
      · obtain ⟨⟨seq, f⟩, hf, hd⟩ := List.mem_map.1 h
        cases hd
        exact .relay seq f (Map.get?_of_mem hn.fn hf)
    · obtain ⟨⟨id, hid⟩, _⟩ := (DeadlineIndex.earliest_spec hn.idx t).1 hm.symm
      rw [hn.dl] at hid
      cases hi : e.net.intents.get? id with
      | none => rw [hi] at hid; cases hid
      | some i =>
        rw [hi] at hid
        cases hid
        exact .dial id i hi
    · exact .nextProbe t hm.symm
    · exact .nextGossip t hm.symm
    · exact .nextPushPull t hm.symm
  · intro hd
    cases hd with
    | suspicion id m s hm hs =>
      have hdl : e.core.suspIdx.deadlineOf id = some s.deadline := by
        rw [hg.inv.dl, show e.core.members.get id = some m from hm]
        simp [hs]
      cases he : e.core.suspIdx.earliest with
      | none => rw [(DeadlineIndex.earliest_none hg.inv.idxInv).1 he id] at hdl; cases hdl
      | some t' =>
        exact ⟨t', ((DeadlineIndex.earliest_spec hg.inv.idxInv t').1 he).2 id _ hdl, by simp⟩
    | probe seq p hp =>
      obtain ⟨t', hle, he⟩ := foldl_some (e.net.probes.map (fun p => some p.2.deadline)) p.deadline
        (List.mem_map.2 ⟨(seq, p), Map.mem_of_get? hp, rfl⟩)
      exact ⟨t', Nat.le_trans hle (pdl seq p hp).1, by rw [he]; simp⟩
    | direct seq p d hp hph =>
      obtain ⟨t', hle, he⟩ := foldl_some (e.net.probes.map (fun p => some p.2.deadline)) p.deadline
        (List.mem_map.2 ⟨(seq, p), Map.mem_of_get? hp, rfl⟩)
      exact ⟨t', Nat.le_trans hle ((pdl seq p hp).2.1 d hph), by rw [he]; simp⟩
    | relay seq f hf =>
      obtain ⟨t', hle, he⟩ := foldl_some (e.net.forwards.map (fun f => some f.2.deadline)) f.deadline
        (List.mem_map.2 ⟨(seq, f), Map.mem_of_get? hf, rfl⟩)
      exact ⟨t', hle, by rw [he]; simp⟩
    | dial id i hi =>
      have hdl : e.net.intentIdx.deadlineOf id = some i.deadline := by rw [hn.dl, hi]; rfl
      cases he : e.net.intentIdx.earliest with
      | none => rw [(DeadlineIndex.earliest_none hn.idx).1 he id] at hdl; cases hdl
      | some t' =>
        exact ⟨t', ((DeadlineIndex.earliest_spec hn.idx t').1 he).2 id _ hdl, by simp⟩
    | nextProbe _ he => exact ⟨t, Nat.le_refl _, by rw [he]; simp⟩
    | nextGossip _ he => exact ⟨t, Nat.le_refl _, by rw [he]; simp⟩
    | nextPushPull _ he => exact ⟨t, Nat.le_refl _, by rw [he]; simp⟩

/-- Servicing timers twice at the same instant: the probes left by the first round have not run out. -/
theorem twice_unblamed {e : Ep I A} (h : Reachable cfg env e) (hl : e.core.lifecycle = .running) (now : Nat)
    (hpt : 0 < cfg.probeTimeout) (id : I) : ¬ Blamed cfg (e.step cfg env (.timeout now)).1 now id := by
  rintro ⟨seq, p, hp, _, _, hw⟩
  obtain ⟨h1, h2⟩ := timeout_probes h hl now hpt hp
  have hok := (reachable_netOk (reachable_step h (.timeout now))).ok seq p hp
  rcases hw.2 with h3 | ⟨_, h3, d, hph⟩
  · omega
  · have hd := hok.direct d hph
    unfold Probe.deadline at h1
    rw [hph] at h1
    dsimp only at h1
    have := Nat.lt_min.1 h1
    omega

end Verif.Ep
