import Verif.Proof.RelayFacts
import Verif.Proof.Service
/-
What the failure of probes does to the health score and to the members.
-/
namespace Verif.Ep
open Verif Core Spec
variable {I A : Type} [DecidableEq I] [DecidableEq A]
variable {cfg : Cfg I A} {env : Env I A}

theorem drainGossip_awareness (e : Ep I A) : (e.drainGossip cfg env).1.core.awareness = e.core.awareness := by
  unfold drainGossip
  dsimp only
  split
  · rfl
  · split <;> rw [drainUser_core]

theorem drainGossip_members (e : Ep I A) : (e.drainGossip cfg env).1.core.members = e.core.members := by
  unfold drainGossip
  dsimp only
  split
  · rfl
  · split <;> rw [drainUser_core]

theorem dead_awareness (c : Core I A) (d : BadState I) (now : Nat) (hd : d.node ≠ cfg.localId) :
    (c.processDead cfg env d now).awareness = c.awareness := by
  apply processDead_cases cfg env c d now (fun c' => c'.awareness = c.awareness) rfl
  · intro m _ _ h; exact absurd h hd
  · intro m _ _ _ _ h; exact absurd h hd
  · intros; rfl

theorem suspect_awareness (c : Core I A) (s : BadState I) (now : Nat) (hd : s.node ≠ cfg.localId) :
    (c.processSuspect cfg env s now).awareness = c.awareness := by
  apply processSuspect_cases cfg env c s now (fun c' => c'.awareness = c.awareness) rfl
  · intros; rfl
  · intro m _ _ _ _ h; exact absurd h hd
  · intros; rfl

theorem expire_awareness {c : Core I A} (hc : Good cfg c) (now : Nat) :
    (act cfg env c (.expire now)).awareness = c.awareness := by
  simp only [act]
  split
  · have key : ∀ (ids : List I) (c : Core I A), (∀ id ∈ ids, id ≠ cfg.localId) →
        (ids.foldl (expireOne cfg env now) c).awareness = c.awareness := by
      intro ids
      induction ids with
      | nil => intro c _; rfl
      | cons id ids ih =>
        intro c h
        rw [List.foldl_cons, ih _ (fun x hx => h x (List.mem_cons_of_mem _ hx))]
        exact dead_awareness _ _ _ (h id (List.mem_cons_self ..))
    refine key _ _ ?_
    rintro id hid rfl
    obtain ⟨m, s, hm, hs, _⟩ := (mem_expiredIds hc.inv).1 hid
    rw [hc.inv.local_susp hm] at hs
    cases hs
  · rfl

theorem reset_awareness (c : Core I A) (pick : Nat → Nat) (now : Nat) :
    (c.resetNodes cfg pick now).awareness = c.awareness := by
  unfold Core.resetNodes
  dsimp only
  generalize (c.members.filter (fun m => reapable cfg m now)).map Member.id = ids
  have h0 : (if ids.isEmpty then c else c.bump).awareness = c.awareness := by split <;> rfl
  rw [← h0]
  generalize (if ids.isEmpty then c else c.bump) = c1
  clear h0
  induction ids generalizing c1 with
  | nil => rfl
  | cons id ids ih => rw [List.foldl_cons, ih]

/-- A record stays as it is, disappears or is declared dead. -/
def Calm (a b : Core I A) : Prop :=
  b.awareness = a.awareness ∧ ∀ id, b.members.get id = a.members.get id ∨
    (∃ m, a.members.get id = some m ∧ (b.members.get id = none ∨ ∃ m', b.members.get id = some m' ∧ m'.state = .dead))

theorem Calm.refl (a : Core I A) : Calm a a := ⟨rfl, fun _ => .inl rfl⟩

/-- The elementary steps of a call that may end probes. -/
theorem micro_calm {op : Op I A} {late : Bool} (ho : op.probeTime.isSome) {a b : Ep I A} (hg : Good cfg a.core)
    (hm : Micro cfg env op late a b) :
    (∃ seq p now, a.net.probes.get? seq = some p ∧ FailWhy cfg op p now ∧ late = false ∧
      a.core.lifecycle = .running ∧ b = a.probeTerminateFailure cfg env seq now) ∨
    (∃ seq p d pl now, a.net.probes.get? seq = some p ∧ now < p.failureDeadline ∧ DoneWhy op seq p d pl now ∧
      late = false ∧ b = a.completeProbeSuccess cfg env seq d pl now) ∨
    Calm a.core b.core := by
  have same : b.core = a.core → Calm a.core b.core := by intro h; rw [h]; exact .refl _
  have quiet : b.core.awareness = a.core.awareness → b.core.members = a.core.members → Calm a.core b.core :=
    fun h1 h2 => ⟨h1, fun _ => .inl (by rw [h2])⟩
  cases hm with
  | core x hx =>
    refine .inr (.inr ?_)
    cases hx with
    | alive src a now tk off => cases ho
    | suspect src s now => cases ho
    | dead src d now => cases ho
    | remoteAlive r tk off hn hr hs =>
      exfalso
      unfold Op.probeTime at ho
      split at ho <;> first | cases hr | cases ho
    | remoteBad r hn hr hs =>
      exfalso
      unfold Op.probeTime at ho
      split at ho <;> first | cases hr | cases ho
    | remoteLeft r hn hr hs =>
      exfalso
      unfold Op.probeTime at ho
      split at ho <;> first | cases hr | cases ho
    | expire now =>
      refine ⟨expire_awareness hg now, fun id => ?_⟩
      have hch := act_change (env := env) hg (.expire now) id
      dsimp only
      revert hch
      generalize (Core.act cfg env a.core (.expire now)).members.get id = o'
      generalize hoo : a.core.members.get id = o
      intro hch
      cases hch with
      | same => exact .inl rfl
      | refuted _ m acc _ _ hacc => cases hacc
      | expired _ m s h1 h2 h3 h4 => exact .inr ⟨m, rfl, .inr ⟨_, rfl, rfl⟩⟩
    | reset pick now =>
      refine ⟨reset_awareness _ _ _, fun id => ?_⟩
      have hch := act_change (env := env) hg (.reset pick now) id
      dsimp only
      revert hch
      generalize (Core.act cfg env a.core (.reset pick now)).members.get id = o'
      generalize hoo : a.core.members.get id = o
      intro hch
      cases hch with
      | same => exact .inl rfl
      | refuted _ m acc _ _ hacc => cases hacc
      | reaped _ _ m h1 => exact .inr ⟨m, rfl, .inl rfl⟩
    | resetNodes pick now => cases ho
    | updateMeta md => cases ho
    | push ev h hq =>
      simp only [Core.act]
      split
      · exact .refl _
      · exact ⟨rfl, fun _ => .inl rfl⟩
    | pop => cases ho
    | dropDials => cases ho
    | fail sev => cases ho
    | success => cases ho
    | drain o l => cases ho
  | aux _ hc hn hf hu => exact .inr (.inr (same hc))
  | send t ht => exact .inr (.inr (same rfl))
  | dial id peer d hr hd =>
    refine .inr (.inr (quiet ?_ ?_)) <;> (unfold pushEvent; rfl)
  | start seq p a hs hr hw hlt => exact .inr (.inr (same rfl))
  | alloc seq hs => exact .inr (.inr (same rfl))
  | dispatched seq b hlt => exact .inr (.inr (same rfl))
  | fail seq p now hp hw hr hlt => exact .inl ⟨seq, p, now, hp, hw, hlt, hr, rfl⟩
  | done seq p direct payload now hp hd hw hr hlt => exact .inr (.inl ⟨seq, p, direct, payload, now, hp, hd, hw, hlt, rfl⟩)
  | nack src seq now ho => exact .inr (.inr (same (handleNack_core ..)))
  | fan seq p now peers st ho hp hk hph hd hf hl hnd ha hfit hlt => exact .inr (.inr (same rfl))
  | fwd seq src p now ho hs hsrc hl hnew => exact .inr (.inr (same rfl))
  | fwdAnswer seq f hf payload now ho hd => exact .inr (.inr (same rfl))
  | fwdExpire seq f hf now ho hd => exact .inr (.inr (same rfl))
  | intent i hr => exact .inr (.inr (same rfl))
  | intentDial i hr hw =>
    refine .inr (.inr (quiet ?_ ?_)) <;> (unfold pushEvent; rfl)
  | skipId => exact .inr (.inr (same rfl))
  | unintent id hw => exact .inr (.inr (same rfl))
  | retire seq => exact .inr (.inr (same rfl))
  | gossip targets now ho hr =>
    refine .inr (.inr (quiet ?_ ?_))
    · rw [sendAll_core, drainGossip_awareness]
    · rw [sendAll_core, drainGossip_members]
  | leave now f ho' hr => rw [ho'] at ho; cases ho
  | poll ho' => rw [ho'] at ho; cases ho

/-! ### The penalty -/

omit [DecidableEq I] [DecidableEq A] in
theorem severity_eq {p : Probe I A} (h : ProbeOk cfg p) : severity p = penalty p := by
  unfold severity penalty relaysOf nackersOf
  cases hp : p.phase with
  | direct d => simp
  | indirect ex ps nb st d =>
    have := (h.indirect _ _ _ _ _ hp).1
    subst this
    dsimp only
    cases ps with
    | nil => simp
    | cons x l => simp

theorem terminate_awareness {e : Ep I A} {seq now : Nat} {p : Probe I A} (hp : e.net.probes.get? seq = some p)
    (hg : ProbeGen cfg e.core p) :
    (e.probeTerminateFailure cfg env seq now).core.awareness =
      if counts p then e.core.awareness.recordFailure (severity p) else e.core.awareness := by
  unfold probeTerminateFailure counts
  rw [hp]
  dsimp only
  cases hk : p.kind with
  | detection =>
    dsimp only
    cases hd : p.dispatched with
    | false => simp
    | true =>
      simp only [Bool.not_true, Bool.false_eq_true, if_false, decide_true, Bool.and_true, if_true]
      split
      · rw [suspect_awareness _ _ _ (hg hk).1]; rfl
      · rfl
  | ping => simp [emit, Core.emit]

omit [DecidableEq I] in
/-- A probe that fails in a call has the penalty it had when the call began. -/
theorem kept_penalty {op : Op I A} {seq now : Nat} {p p' : Probe I A} (h : Kept op false seq p p')
    (hw : FailWhy cfg op p' now) (hnack : ∀ src now, op ≠ .packet src (.nack seq) now) :
    counts p' = counts p ∧ penalty p' = penalty p := by
  have hfan : ¬ Fanned op p p' := by
    rintro ⟨⟨now', ho, hd, _⟩, hnd⟩
    obtain ⟨h1, h2⟩ := hw
    rw [ho] at h1
    have : now' = now := by simpa [Op.probeTime] using h1
    subst this
    rw [h.deadline] at h2
    rcases h2 with h2 | ⟨_, _, d, h2⟩
    · omega
    · exact hnd d h2
  have hdisp : p'.dispatched = p.dispatched := by
    rcases h.disp with h1 | h1 | h1
    · exact h1
    · exact absurd h1 hfan
    · cases h1
  have hask : asked p' = asked p := by
    rcases h.asked with h1 | h1
    · exact h1
    · exact absurd h1 hfan
  have hn : nackersOf p' = nackersOf p := by
    rcases h.nack with h1 | ⟨src, t, h1⟩
    · exact h1
    · exact absurd h1 (hnack _ _)
  refine ⟨?_, ?_⟩
  · unfold counts; rw [hdisp, h.kind]
  · unfold penalty; rw [relaysOf_eq, relaysOf_eq, hask, hn]

/-- The health score after timers were serviced. -/
theorem timeout_awareness {e : Ep I A} (h : Reachable cfg env e) (now : Nat) :
    ∃ failed : List (Nat × Probe I A), (failed.map Prod.fst).Nodup ∧
      (∀ x ∈ failed, pending e x.1 = some x.2 ∧ FailWhy cfg (.timeout now) x.2 now) ∧
      (∀ s p, pending e s = some p → s ∈ failed.map Prod.fst ∨
        ∃ p', pending (e.step cfg env (.timeout now)).1 s = some p' ∧ SameProbe p p') ∧
      (∀ s p, e.core.lifecycle = .running → pending e s = some p → p.failureDeadline ≤ now → s ∈ failed.map Prod.fst) ∧
      (e.step cfg env (.timeout now)).1.core.awareness =
        ((failed.filter (fun x => counts x.2)).map (fun x => penalty x.2)).foldl Awareness.recordFailure
          e.core.awareness := by
  refine step_micro_induct2 (op := .timeout now)
    (Q := fun b => (∀ s p', b.net.probes.get? s = some p' → ProbeGen cfg b.core p') ∧
      ∃ failed : List (Nat × Probe I A), (failed.map Prod.fst).Nodup ∧
        (∀ x ∈ failed, pending e x.1 = some x.2 ∧ FailWhy cfg (.timeout now) x.2 now) ∧
        (∀ s p, pending e s = some p → s ∈ failed.map Prod.fst ∨
          ∃ p', b.net.probes.get? s = some p' ∧ Kept (.timeout now) false s p p') ∧
        (∀ s p', b.net.probes.get? s = some p' → s ∉ failed.map Prod.fst ∧
          ∃ p, pending e s = some p ∧ Kept (.timeout now) false s p p') ∧
        b.core.awareness = ((failed.filter (fun x => counts x.2)).map (fun x => penalty x.2)).foldl
          Awareness.recordFailure e.core.awareness)
    (R := fun b => ∃ failed : List (Nat × Probe I A), (failed.map Prod.fst).Nodup ∧
        (∀ x ∈ failed, pending e x.1 = some x.2 ∧ FailWhy cfg (.timeout now) x.2 now) ∧
        (∀ s p, pending e s = some p → s ∈ failed.map Prod.fst ∨
          ∃ p', b.net.probes.get? s = some p' ∧ SameProbe p p') ∧
        (∀ s p, e.core.lifecycle = .running → pending e s = some p → p.failureDeadline ≤ now → s ∈ failed.map Prod.fst) ∧
        b.core.awareness = ((failed.filter (fun x => counts x.2)).map (fun x => penalty x.2)).foldl
          Awareness.recordFailure e.core.awareness)
    h ?_ ?_ ?_ ?_
  · refine ⟨fun s p' hp => reachable_probeGen h hp, [], by simp, by simp, ?_, ?_, rfl⟩
    · exact fun s p hp => .inr ⟨p, hp, .refl _⟩
    · exact fun s p hp => ⟨by simp, p, hp, .refl _⟩
  · rintro a b hg hn ⟨hgen, failed, f1, f2, f3, f4, f5⟩ hm
    have hslot := micro_slot hm hn
    refine ⟨?_, ?_⟩
    · intro s p' hp'
      cases hslot s with
      | none h h' => rw [h'] at hp'; cases hp'
      | kept q q' h h' hs =>
        rw [h'] at hp'; cases hp'
        intro hk
        obtain ⟨h1, h2, h3⟩ := hgen s q h (hs.kind ▸ hk)
        rw [hs.target, hs.gen, hs.inc]
        exact ⟨h1, h2, h3.acts hg (micro_acts hm) h1⟩
      | started q ak h h' hw hlt => cases hlt
      | failed q now h h' hw he hlt => rw [h'] at hp'; cases hp'
      | done q d pl now h h' hd hw he hlt => rw [h'] at hp'; cases hp'
    · -- the tables of a step that does not end a probe
      have keep : (∀ s p, a.net.probes.get? s = some p → ∃ p', b.net.probes.get? s = some p') →
          b.core.awareness = a.core.awareness → ∃ failed : List (Nat × Probe I A), (failed.map Prod.fst).Nodup ∧
        (∀ x ∈ failed, pending e x.1 = some x.2 ∧ FailWhy cfg (.timeout now) x.2 now) ∧
        (∀ s p, pending e s = some p → s ∈ failed.map Prod.fst ∨
          ∃ p', b.net.probes.get? s = some p' ∧ Kept (.timeout now) false s p p') ∧
        (∀ s p', b.net.probes.get? s = some p' → s ∉ failed.map Prod.fst ∧
          ∃ p, pending e s = some p ∧ Kept (.timeout now) false s p p') ∧
        b.core.awareness = ((failed.filter (fun x => counts x.2)).map (fun x => penalty x.2)).foldl
          Awareness.recordFailure e.core.awareness := by
        intro hk hw
        refine ⟨failed, f1, f2, ?_, ?_, by rw [hw, f5]⟩
        · intro s p hp
          rcases f3 s p hp with h1 | ⟨p1, h1, h2⟩
          · exact .inl h1
          · right
            obtain ⟨p2, h3⟩ := hk s p1 h1
            cases hslot s with
            | none h h' => rw [h'] at h3; cases h3
            | kept q q' h h' hs =>
              rw [h'] at h3; cases h3
              rw [h1] at h; cases h
              exact ⟨_, h', h2.trans hs⟩
            | started q ak h h' hw hlt => cases hlt
            | failed q now h h' hw he hlt => rw [h'] at h3; cases h3
            | done q d pl now h h' hd hw he hlt => rw [h'] at h3; cases h3
        · intro s p' hp'
          cases hslot s with
          | none h h' => rw [h'] at hp'; cases hp'
          | kept q q' h h' hs =>
            rw [h'] at hp'; cases hp'
            obtain ⟨h1, p, h2, h3⟩ := f4 s q h
            exact ⟨h1, p, h2, h3.trans hs⟩
          | started q ak h h' hw hlt => cases hlt
          | failed q now h h' hw he hlt => rw [h'] at hp'; cases hp'
          | done q d pl now h h' hd hw he hlt => rw [h'] at hp'; cases hp'
      by_cases hfail : ∃ seq p' t, a.net.probes.get? seq = some p' ∧ FailWhy cfg (.timeout now) p' t ∧
          b = a.probeTerminateFailure cfg env seq t
      · obtain ⟨seq, p', t, hp', hw, rfl⟩ := hfail
        obtain ⟨hnin, p, hp, hk⟩ := f4 seq p' hp'
        have ht : t = now := by
          have := hw.1; simp only [Op.probeTime, Option.some.injEq] at this; exact this.symm
        subst ht
        have hpen := kept_penalty hk hw (by intro _ _; simp)
        have hprobes : (a.probeTerminateFailure cfg env seq t).net.probes = a.net.probes.erase seq := by
          rw [terminate_net a seq t p' hp', discard_probes]
        refine ⟨failed ++ [(seq, p)], ?_, ?_, ?_, ?_, ?_⟩
        · rw [List.map_append]
          exact List.nodup_append.2 ⟨f1, by simp, by
            intro x hx y hy hxy
            simp only [List.map_cons, List.map_nil, List.mem_singleton] at hy
            subst hy; subst hxy; exact hnin hx⟩
        · intro x hx
          rcases List.mem_append.1 hx with hx | hx
          · exact f2 x hx
          · rw [List.mem_singleton.1 hx]; exact ⟨hp, hk.failWhy hw⟩
        · intro s q hq
          by_cases hs : s = seq
          · subst hs; left; simp
          · rcases f3 s q hq with h1 | ⟨p1, h1, h2⟩
            · left; rw [List.map_append]; exact List.mem_append_left _ h1
            · right
              exact ⟨p1, by rw [hprobes, Map.get?_erase, if_neg (Ne.symm hs)]; exact h1, h2⟩
        · intro s q hq
          rw [hprobes, Map.get?_erase] at hq
          split at hq
          · cases hq
          · rename_i hs
            obtain ⟨h1, h2⟩ := f4 s q hq
            refine ⟨?_, h2⟩
            simp only [List.map_append, List.map_cons, List.map_nil, List.mem_append, List.mem_singleton, not_or]
            exact ⟨h1, Ne.symm hs⟩
        · rw [terminate_awareness hp' (hgen seq p' hp'), f5, List.filter_append, hpen.1, severity_eq (hn.ok _ _ hp'),
            hpen.2]
          by_cases hc : counts p = true
          · rw [if_pos hc]; simp [hc]
          · rw [if_neg hc]; simp [hc]
      · refine keep ?_ ?_
        rotate_left
        · rcases micro_calm rfl hg hm with ⟨s, p, t, h1, h2, _, _, h3⟩ | ⟨s, p, d, pl, t, hp, _, hw, _⟩ | hcalm
          · exact absurd ⟨s, p, t, h1, h2, h3⟩ hfail
          · exact absurd rfl ((doneWhy_not_start hw).2.2 now)
          · exact hcalm.1
        intro s p hp
        cases hslot s with
        | none h h' => rw [hp] at h; cases h
        | kept q q' h h' hs => exact ⟨_, h'⟩
        | started q ak h h' hw hlt => cases hlt
        | failed q t h h' hw he hlt => exact absurd ⟨s, q, t, h, hw, he⟩ hfail
        | done q d pl t h h' hd hw he hlt => exact absurd rfl ((doneWhy_not_start hw).2.2 now)
  · rintro a ha hg hn ⟨_, failed, f1, f2, f3, f4, f5⟩
    refine ⟨failed, f1, f2, ?_, ?_, f5⟩
    · intro s p hp
      rcases f3 s p hp with h1 | ⟨p1, h1, h2⟩
      · exact .inl h1
      · exact .inr ⟨p1, h1, h2.toSameProbe⟩
    · intro s p hl hp hd
      rcases f3 s p hp with h1 | ⟨p1, h1, h2⟩
      · exact h1
      · exfalso
        have he : a = timeoutEnds cfg env e now := by rw [ha]; simp only [stepEnds, if_pos hl]
        rw [he] at h1
        have := (ends_serviced e now (reachable_netOk h) h1).2
        rw [h2.deadline] at this
        omega
  · rintro a b hg hn ⟨failed, f1, f2, f3, f6, f5⟩ hm
    refine ⟨failed, f1, f2, ?_, f6, ?_⟩
    · intro s p hp
      rcases f3 s p hp with h1 | ⟨p1, h1, h2⟩
      · exact .inl h1
      · right
        cases micro_slot hm hn s with
        | none h h' => rw [h1] at h; cases h
        | kept q q' h h' hs =>
          rw [h1] at h; cases h
          exact ⟨_, h', h2.trans hs.toSameProbe⟩
        | started q ak h h' hw hlt => rw [h1] at h; cases h
        | failed q t h h' hw he hlt => cases hlt
        | done q d pl t h h' hd hw he hlt => cases hlt
    · rcases micro_calm rfl hg hm with ⟨_, _, _, _, _, hl, _⟩ | ⟨_, _, _, _, _, _, _, _, hl, _⟩ | hcalm
      · cases hl
      · cases hl
      · rw [hcalm.1, f5]

/-! ### Blame -/

/-- What a failed probe does to one record. -/
theorem terminate_get {e : Ep I A} (hgood : Good cfg e.core) {seq now : Nat} {p : Probe I A}
    (hp : e.net.probes.get? seq = some p) (hg : ProbeGen cfg e.core p) (id : I) :
    (e.probeTerminateFailure cfg env seq now).core.members.get id = e.core.members.get id ∨
    (p.kind = .detection ∧ p.target.id = id ∧ ∃ m m', e.core.members.get id = some m ∧
      (e.probeTerminateFailure cfg env seq now).core.members.get id = some m' ∧ m.gen = p.targetGeneration ∧
      m.incarnation ≤ p.targetIncarnation ∧
      ((m'.state = m.state ∧ m'.gen = m.gen ∧ m'.incarnation = m.incarnation) ∨
        (m.state = .alive ∧ m'.state = .suspect ∧ m'.gen = m.gen ∧ m'.incarnation = p.targetIncarnation))) := by
  have hg' := hg
  unfold probeTerminateFailure
  rw [hp]
  dsimp only
  cases hk : p.kind with
  | ping => exact .inl rfl
  | detection =>
    dsimp only
    split
    · exact .inl rfl
    · dsimp only
      split
      · rename_i hs
        have hc1 : Good cfg (bump { e.core with awareness := e.core.awareness.recordFailure (severity p) }) :=
          Good.act (env := env) hgood (.fail (severity p))
        have hch := act_change (env := env) hc1
          (.suspect { incarnation := p.targetIncarnation, node := p.target.id, src := cfg.localId } now) id
        simp only [Core.act] at hch
        revert hch
        generalize (processSuspect cfg env (bump { e.core with awareness := e.core.awareness.recordFailure (severity p) })
          { incarnation := p.targetIncarnation, node := p.target.id, src := cfg.localId } now).members.get id = o'
        have hb : (bump { e.core with awareness := e.core.awareness.recordFailure (severity p) }).members = e.core.members := rfl
        rw [hb] at hs ⊢
        generalize hoo : e.core.members.get id = o
        intro hch
        have hgen : ∀ m, p.target.id = id → o = some m → m.gen = p.targetGeneration := by
          intro m hid hm
          unfold sameMember at hs
          rw [hid, hoo, hm] at hs
          simpa using (Bool.and_eq_true_iff.1 hs).2
        cases hch with
        | same => exact .inl rfl
        | confirm _ _ m susp susp' d h1 h2 h3 h4 h5 h6 =>
          exact .inr ⟨rfl, h1, m, _, rfl, rfl, hgen m h1 rfl, h4, .inl ⟨rfl, rfl, rfl⟩⟩
        | refuted _ m acc h1 h2 hacc =>
          exfalso
          cases hacc with
          | suspect _ _ h3 => exact (hg' hk).1 (h3.trans h1)
        | suspected _ _ m mn mx h1 h2 h3 h4 h5 h6 h7 =>
          exact .inr ⟨rfl, h1, m, _, rfl, rfl, hgen m h1 rfl, h4, .inr ⟨h5, rfl, rfl, rfl⟩⟩
      · exact .inl rfl

theorem done_core_members (e : Ep I A) (seq now : Nat) (d : Bool) (pl : Bytes) (p : Probe I A)
    (hp : e.net.probes.get? seq = some p) (hd : now < p.failureDeadline) :
    (e.completeProbeSuccess cfg env seq d pl now).core.members = e.core.members := by
  unfold completeProbeSuccess
  rw [hp]
  dsimp only
  rw [if_neg (by omega)]
  cases p.kind with
  | detection => dsimp only; split <;> rfl
  | ping => rfl

/-- Who is suspected by a call that may end probes. -/
theorem step_blame {e : Ep I A} (h : Reachable cfg env e) (op : Op I A) (ho : op.probeTime.isSome) {id : I}
    {m m' : Member I A} (hm : e.core.members.get id = some m) (ha : m.state = .alive)
    (hm' : (e.step cfg env op).1.core.members.get id = some m') (hs' : m'.state = .suspect) :
    ∃ seq p now, pending e seq = some p ∧ p.kind = .detection ∧ FailWhy cfg op p now ∧ p.target.id = id ∧
      p.targetGeneration = m.gen ∧ p.targetIncarnation = m.incarnation ∧ m'.gen = m.gen ∧
      m'.incarnation = m.incarnation := by
  let Blamed : Member I A → Prop := fun m' => ∃ seq p now, pending e seq = some p ∧ p.kind = .detection ∧
    FailWhy cfg op p now ∧ p.target.id = id ∧ p.targetGeneration = m.gen ∧ p.targetIncarnation = m.incarnation ∧
    m'.gen = m.gen ∧ m'.incarnation = m.incarnation
  let M : Ep I A → Prop := fun b =>
    (∀ m', b.core.members.get id = some m' → m'.state = .alive → m'.gen = m.gen ∧ m'.incarnation = m.incarnation) ∧
    (∀ m', b.core.members.get id = some m' → m'.state = .suspect → Blamed m')
  have hcalmM : ∀ a b : Ep I A, M a → Calm a.core b.core → M b := by
    rintro a b ⟨h1, h2⟩ ⟨_, hc⟩
    rcases hc id with hc | ⟨m0, h3, h4 | ⟨m1, h4, h5⟩⟩
    · exact ⟨fun m' hm' => h1 m' (by rw [← hc]; exact hm'), fun m' hm' => h2 m' (by rw [← hc]; exact hm')⟩
    · refine ⟨fun m' hm' _ => ?_, fun m' hm' _ => ?_⟩ <;>
      · rw [h4] at hm'; cases hm'
    · refine ⟨fun m' hm' hst => ?_, fun m' hm' hst => ?_⟩ <;>
      · rw [h4] at hm'; cases hm'
        rw [h5] at hst; cases hst
  have key : M (e.step cfg env op).1 := by
    refine step_micro_induct2
      (Q := fun b => (∀ s p', b.net.probes.get? s = some p' → ProbeGen cfg b.core p' ∧
        ∃ p, pending e s = some p ∧ Kept op false s p p') ∧ M b) (R := M) h op ?_ ?_ ?_ ?_
    · refine ⟨fun s p' hp => ⟨reachable_probeGen h hp, p', hp, .refl _⟩, ?_, ?_⟩
      · intro m' hm' _; rw [hm] at hm'; cases hm'; exact ⟨rfl, rfl⟩
      · intro m' hm' hst; rw [hm] at hm'; cases hm'; rw [ha] at hst; cases hst
    · rintro a b hg hn ⟨hp, hM⟩ hmic
      refine ⟨?_, ?_⟩
      · intro s p' hp'
        cases micro_slot hmic hn s with
        | none h h' => rw [h'] at hp'; cases hp'
        | kept q q' h h' hs =>
          rw [h'] at hp'; cases hp'
          obtain ⟨h1, p, h2, h3⟩ := hp s q h
          refine ⟨?_, p, h2, h3.trans hs⟩
          intro hk
          obtain ⟨h4, h5, h6⟩ := h1 (hs.kind ▸ hk)
          rw [hs.target, hs.gen, hs.inc]
          exact ⟨h4, h5, h6.acts hg (micro_acts hmic) h4⟩
        | started q ak h h' hw hlt => cases hlt
        | failed q now h h' hw he hlt => rw [h'] at hp'; cases hp'
        | done q d pl now h h' hd hw he hlt => rw [h'] at hp'; cases hp'
      · rcases micro_calm ho hg hmic with ⟨seq, p', t, hp', hw, _, _, rfl⟩ | ⟨seq, p', d, pl, t, hp', hd, hw, _, rfl⟩ | hcalm
        · obtain ⟨hgen, p, hpe, hk⟩ := hp seq p' hp'
          rcases terminate_get (env := env) (now := t) hg hp' hgen id with h1 | ⟨h1, h2, m0, m1, h3, h4, h5, h6, h7⟩
          · exact ⟨fun x hx => hM.1 x (by rw [← h1]; exact hx), fun x hx => hM.2 x (by rw [← h1]; exact hx)⟩
          · rcases h7 with ⟨h7, h8, h9⟩ | ⟨h7, h8, h9, h10⟩
            · refine ⟨fun x hx hst => ?_, fun x hx hst => ?_⟩
              · rw [h4] at hx; cases hx
                rw [h8, h9]
                exact hM.1 m0 h3 (by rw [← h7]; exact hst)
              · rw [h4] at hx; cases hx
                obtain ⟨s, q, n, g1, g2, g3, g4, g5, g6, g7, g8⟩ := hM.2 m0 h3 (by rw [← h7]; exact hst)
                exact ⟨s, q, n, g1, g2, g3, g4, g5, g6, by rw [h8]; exact g7, by rw [h9]; exact g8⟩
            · obtain ⟨a1, a2⟩ := hM.1 m0 h3 h7
              have hle := ((hgen h1).2.2.2 m0 (by rw [h2]; exact h3) h5).1
              have hinc : p'.targetIncarnation = m.incarnation := by rw [← a2]; omega
              refine ⟨fun x hx hst => ?_, fun x hx hst => ?_⟩
              · rw [h4] at hx; cases hx
                rw [h8] at hst; cases hst
              · rw [h4] at hx; cases hx
                refine ⟨seq, p, t, hpe, by rw [← hk.kind]; exact h1, hk.failWhy hw, by rw [← hk.target]; exact h2, ?_, ?_, ?_, ?_⟩
                · rw [← hk.gen, ← h5]; exact a1
                · rw [← hk.inc]; exact hinc
                · rw [h9]; exact a1
                · rw [h10]; exact hinc
        · have hc := done_core_members (cfg := cfg) (env := env) a seq t d pl p' hp' hd
          exact ⟨fun x hx => hM.1 x (by rw [← hc]; exact hx), fun x hx => hM.2 x (by rw [← hc]; exact hx)⟩
        · exact hcalmM a b hM hcalm
    · rintro a _ _ _ ⟨_, hM⟩; exact hM
    · intro a b hg hn hM hmic
      rcases micro_calm ho hg hmic with ⟨_, _, _, _, _, hl, _⟩ | ⟨_, _, _, _, _, _, _, _, hl, _⟩ | hcalm
      · cases hl
      · cases hl
      · exact hcalmM a b hM hcalm
  exact key.2 m' hm' hs'

/-- Once the probed membership was replaced, removed or renewed, it stays so. -/
theorem run_gone {e : Ep I A} (h : Reachable cfg env e) {p : Probe I A} {seq : Nat} (hp : pending e seq = some p)
    (hk : p.kind = .detection)
    (hgone : ∀ m, e.core.members.get p.target.id = some m → m.gen ≠ p.targetGeneration ∨
      p.targetIncarnation < m.incarnation) (ops : List (Op I A)) :
    ∀ m, (Ep.run cfg env e ops).core.members.get p.target.id = some m → m.gen ≠ p.targetGeneration ∨
      p.targetIncarnation < m.incarnation := by
  obtain ⟨h1, h2, h3⟩ := reachable_probeGen h hp hk
  have h4 : GenOk e.core p.target.id p.targetGeneration (p.targetIncarnation + 1) p.target.addr := by
    refine ⟨h3.1, fun m hm hg => ?_⟩
    rcases hgone m hm with h5 | h5
    · exact absurd hg h5
    · exact ⟨h5, (h3.2 m hm hg).2⟩
  have key : GenOk (Ep.run cfg env e ops).core p.target.id p.targetGeneration (p.targetIncarnation + 1) p.target.addr := by
    induction ops using snoc_induction with
    | h0 => exact h4
    | h1 ops op ih =>
      rw [run_snoc]
      exact step_micro_induct (Q := fun b => GenOk b.core p.target.id p.targetGeneration (p.targetIncarnation + 1)
        p.target.addr) (reachable_run h ops) op ih (fun late a b hg _ hq hm => hq.acts hg (micro_acts hm) h1)
  intro m hm
  by_cases hg : m.gen = p.targetGeneration
  · exact .inr (key.2 m hm hg).1
  · exact .inl hg

/-! ### Starting probes -/

theorem sendProbe_probes (e : Ep I A) (m : Member I A) (seq : Nat) :
    (e.sendProbe cfg env m seq).1.net.probes = e.net.probes := by
  have h : ∀ (e : Ep I A) (a : A) (x : Message I A), (e.pushWithinMtu cfg env a x).1.net.probes = e.net.probes := by
    intro e a x; unfold pushWithinMtu; split <;> rfl
  unfold sendProbe
  dsimp only
  split
  · split
    · rfl
    · dsimp only; rw [h, h]
  · rw [h]

theorem startProbe_pending (e : Ep I A) (now seq : Nat) {p' : Probe I A}
    (hp : (e.startProbe cfg env now).1.net.probes.get? seq = some p') :
    e.net.probes.get? seq = some p' ∨ ∃ m b, m ∈ e.core.members ∧ m.id ≠ cfg.localId ∧ m.deadOrLeft = false ∧
      p' = { Probe.newDirect m.server m.incarnation m.gen now .detection cfg.probeTimeout
              (now + e.core.awareness.scaleTimeout cfg.probeInterval) with dispatched := b } := by
  unfold startProbe at hp
  split at hp
  · exact .inl hp
  · split at hp
    · exact .inl hp
    · rename_i m idx hm
      dsimp only at hp
      split at hp
      · exact .inl hp
      · rename_i s hs
        dsimp only at hp
        rw [sendProbe_probes] at hp
        dsimp only at hp
        rw [Map.get?_modify, Map.get?_insert] at hp
        split at hp
        · right
          obtain ⟨h1, h2, h3⟩ := nextProbeTarget_mem hm
          exact ⟨m, _, h1, h2, h3, (Option.some.inj hp).symm⟩
        · exact .inl hp

theorem fireProbeScheduler_pending (e : Ep I A) (now seq : Nat) {p' : Probe I A}
    (hp : (e.fireProbeScheduler cfg env now).net.probes.get? seq = some p') :
    e.net.probes.get? seq = some p' ∨ ∃ m b, m ∈ (e.fireProbeScheduler cfg env now).core.members ∧
      m.id ≠ cfg.localId ∧ m.deadOrLeft = false ∧
      p' = { Probe.newDirect m.server m.incarnation m.gen now .detection cfg.probeTimeout
              (now + (e.fireProbeScheduler cfg env now).core.awareness.scaleTimeout cfg.probeInterval) with
              dispatched := b } := by
  have key : ∀ (a : Ep I A), a.net.probes = e.net.probes →
      e.fireProbeScheduler cfg env now = { (a.startProbe cfg env now).1 with nextProbe := some (now + cfg.probeInterval) } →
      e.net.probes.get? seq = some p' ∨ ∃ m b, m ∈ (e.fireProbeScheduler cfg env now).core.members ∧
      m.id ≠ cfg.localId ∧ m.deadOrLeft = false ∧
      p' = { Probe.newDirect m.server m.incarnation m.gen now .detection cfg.probeTimeout
              (now + (e.fireProbeScheduler cfg env now).core.awareness.scaleTimeout cfg.probeInterval) with
              dispatched := b } := by
    intro a ha he
    rw [he] at hp ⊢
    rcases startProbe_pending a now seq hp with h | ⟨m, b, h1, h2, h3, h4⟩
    · rw [ha] at h; exact .inl h
    · right
      refine ⟨m, b, ?_, h2, h3, ?_⟩
      · show m ∈ (a.startProbe cfg env now).1.core.members
        rw [startProbe_core]; exact h1
      · show p' = { Probe.newDirect m.server m.incarnation m.gen now .detection cfg.probeTimeout
              (now + (a.startProbe cfg env now).1.core.awareness.scaleTimeout cfg.probeInterval) with dispatched := b }
        rw [startProbe_core]; exact h4
  have hnp : e.nextProbe = none ∨ ∃ d, e.nextProbe = some d := by cases e.nextProbe <;> simp
  rcases hnp with hnp | ⟨d, hnp⟩
  · left
    unfold fireProbeScheduler at hp
    rw [hnp] at hp
    exact hp
  · by_cases hd : now < d
    · left
      unfold fireProbeScheduler at hp
      rw [hnp] at hp
      dsimp only at hp
      rw [if_pos hd] at hp
      exact hp
    · have he : e.fireProbeScheduler cfg env now =
          { ((if e.core.members.length > 0 ∧ e.probesSinceReset + 1 ≥ e.core.members.length then
              { ({ e with probesSinceReset := e.probesSinceReset + 1 } : Ep I A).resetNodes cfg env now with
                probesSinceReset := 0 }
              else { e with probesSinceReset := e.probesSinceReset + 1 } : Ep I A).startProbe cfg env now).1 with
            nextProbe := some (now + cfg.probeInterval) } := by
        conv => lhs; unfold fireProbeScheduler
        rw [hnp]
        dsimp only
        rw [if_neg hd]
      refine key _ ?_ he
      split <;> rfl

theorem startPushPull_keeps (e : Ep I A) (peer : A) (kind : PushPullKind) (now : Nat) :
    (e.startPushPull cfg env peer kind now).1.net.probes = e.net.probes ∧
    (e.startPushPull cfg env peer kind now).1.core.members = e.core.members ∧
    (e.startPushPull cfg env peer kind now).1.core.awareness = e.core.awareness := by
  unfold startPushPull startPushPullDirect
  dsimp only
  split
  · exact ⟨rfl, rfl, rfl⟩
  · exact ⟨rfl, rfl, rfl⟩

theorem sendAll_probes (e : Ep I A) (targets : List A) (msgs : List (Message I A)) :
    (e.sendAll targets msgs).net.probes = e.net.probes := by
  unfold sendAll
  induction targets generalizing e with
  | nil => rfl
  | cons a l ih =>
    rw [List.foldl_cons, ih]
    split <;> rfl

/-- The schedulers after the probe scheduler touch neither the probes, nor the table, nor the health score. -/
theorem timeoutStarts_keeps (e : Ep I A) (now : Nat) :
    (timeoutStarts cfg env e now).net.probes = (e.fireProbeScheduler cfg env now).net.probes ∧
    (timeoutStarts cfg env e now).core.members = (e.fireProbeScheduler cfg env now).core.members ∧
    (timeoutStarts cfg env e now).core.awareness = (e.fireProbeScheduler cfg env now).core.awareness := by
  unfold timeoutStarts
  generalize e.fireProbeScheduler cfg env now = e
  have hc : ∀ e : Ep I A, e.refreshCache.net.probes = e.net.probes ∧ e.refreshCache.core.members = e.core.members ∧
      e.refreshCache.core.awareness = e.core.awareness := by
    intro e; unfold refreshCache; split <;> exact ⟨rfl, rfl, rfl⟩
  have hp : ∀ e : Ep I A, (e.firePushPullScheduler cfg env now).net.probes = e.net.probes ∧
      (e.firePushPullScheduler cfg env now).core.members = e.core.members ∧
      (e.firePushPullScheduler cfg env now).core.awareness = e.core.awareness := by
    intro e
    unfold firePushPullScheduler
    split
    · exact ⟨rfl, rfl, rfl⟩
    · split
      · exact ⟨rfl, rfl, rfl⟩
      · dsimp only
        split
        · exact ⟨rfl, rfl, rfl⟩
        · exact startPushPull_keeps e.tickUp _ _ _
  have hg : (e.fireGossipScheduler cfg env now).net.probes = e.net.probes ∧
      (e.fireGossipScheduler cfg env now).core.members = e.core.members ∧
      (e.fireGossipScheduler cfg env now).core.awareness = e.core.awareness := by
    unfold fireGossipScheduler
    split
    · exact ⟨rfl, rfl, rfl⟩
    · split
      · exact ⟨rfl, rfl, rfl⟩
      · dsimp only
        split
        · exact ⟨rfl, rfl, rfl⟩
        · refine ⟨?_, ?_, ?_⟩
          · rw [sendAll_probes, (drainGossip_net _).1]; rfl
          · rw [sendAll_core, drainGossip_members]; rfl
          · rw [sendAll_core, drainGossip_awareness]; rfl
  obtain ⟨a1, a2, a3⟩ := hc ((e.fireGossipScheduler cfg env now).firePushPullScheduler cfg env now)
  obtain ⟨b1, b2, b3⟩ := hp (e.fireGossipScheduler cfg env now)
  obtain ⟨g1, g2, g3⟩ := hg
  exact ⟨by rw [a1, b1, g1], by rw [a2, b2, g2], by rw [a3, b3, g3]⟩

theorem ping_not_detection {e : Ep I A} {node : TNode I A} {now seq : Nat} {q : Probe I A}
    (hp : pending (e.step cfg env (.ping node now)).1 seq = some q) (hn : pending e seq = none) :
    q.kind ≠ .detection := by
  have hp' : (e.ping cfg env node now).1.net.probes.get? seq = some q := hp
  unfold pending at hn
  unfold Ep.ping at hp'
  split at hp'
  · rw [hn] at hp'; cases hp'
  · dsimp only at hp'
    split at hp'
    · rw [hn] at hp'; cases hp'
    · split at hp'
      · dsimp only at hp'; rw [hn] at hp'; cases hp'
      · split at hp'
        · dsimp only at hp'; rw [hn] at hp'; cases hp'
        · dsimp only [send] at hp'
          rw [Map.get?_insert] at hp'
          split at hp'
          · cases hp'; simp [Probe.newDirect]
          · rw [hn] at hp'; cases hp'

/-- Which detection probes are pending after a call. -/
theorem step_started {e : Ep I A} (h : Reachable cfg env e) (op : Op I A) {seq : Nat} {p' : Probe I A}
    (hp : pending (e.step cfg env op).1 seq = some p') (hk : p'.kind = .detection) :
    (∃ p, pending e seq = some p ∧ Kept op true seq p p') ∨
    ∃ m now, (op = .startProbe now ∨ op = .timeout now) ∧ m ∈ (e.step cfg env op).1.core.members ∧
      m.id ≠ cfg.localId ∧ m.deadOrLeft = false ∧ p'.target = m.server ∧ p'.targetIncarnation = m.incarnation ∧
      p'.targetGeneration = m.gen ∧ p'.sentAt = now ∧ relaysOf p' = [] ∧
      p'.failureDeadline = now + (e.step cfg env op).1.core.awareness.scaleTimeout cfg.probeInterval := by
  have hn := reachable_netOk h
  by_cases h1 : ∃ now, op = .startProbe now
  · obtain ⟨now, rfl⟩ := h1
    have hc : (e.step cfg env (.startProbe now)).1.core = e.core := startProbe_core e now
    rcases startProbe_pending e now seq hp with hq | ⟨m, b, h1, h2, h3, rfl⟩
    · exact .inl ⟨p', hq, .refl _⟩
    · refine .inr ⟨m, now, .inl rfl, by rw [hc]; exact h1, h2, h3, rfl, rfl, rfl, rfl, rfl, by rw [hc]; rfl⟩
  · by_cases h2 : ∃ now, op = .timeout now
    · obtain ⟨now, rfl⟩ := h2
      by_cases hl : e.core.lifecycle = .running
      · have hs : (e.step cfg env (.timeout now)).1 = timeoutStarts cfg env (timeoutEnds cfg env e now) now :=
          handleTimeout_eq e now hl
        have hend : ∀ p', (timeoutEnds cfg env e now).net.probes.get? seq = some p' →
            ∃ p, pending e seq = some p ∧ Kept (.timeout now) false seq p p' := by
          have hm := (timeoutEnds_micros (cfg := cfg) (env := env) e now (op := .timeout now) rfl hl hn.pn hn.fn).1
          refine micros_induct (Q := fun b => ∀ p', b.net.probes.get? seq = some p' →
            ∃ p, pending e seq = some p ∧ Kept (.timeout now) false seq p p') hm (reachable_good h) hn (fun p' hp' => ⟨p', hp', .refl _⟩) ?_
          intro a b hg hn hq hm p' hp'
          cases micro_slot hm hn seq with
          | none h h' => rw [h'] at hp'; cases hp'
          | kept q q' h h' hs =>
            rw [h'] at hp'; cases hp'
            obtain ⟨p, h1, h2⟩ := hq q h
            exact ⟨p, h1, h2.trans hs⟩
          | started q ak h h' hw hlt => cases hlt
          | failed q now h h' hw he hlt => rw [h'] at hp'; cases hp'
          | done q d pl now h h' hd hw he hlt => rw [h'] at hp'; cases hp'
        obtain ⟨k1, k2, k3⟩ := timeoutStarts_keeps (cfg := cfg) (env := env) (timeoutEnds cfg env e now) now
        unfold pending at hp
        rw [hs, k1] at hp
        rcases fireProbeScheduler_pending _ now seq hp with hq | ⟨m, b, h1, h2, h3, rfl⟩
        · obtain ⟨p, h1, h2⟩ := hend _ hq
          exact .inl ⟨p, h1, h2.late⟩
        · rw [hs]
          exact .inr ⟨m, now, .inr rfl, by rw [k2]; exact h1, h2, h3, rfl, rfl, rfl, rfl, rfl, by rw [k3]; rfl⟩
      · left
        have hs : (e.step cfg env (.timeout now)).1 = e := by
          show e.handleTimeout cfg env now = e
          unfold handleTimeout; rw [if_pos hl]
        rw [hs] at hp
        exact ⟨p', hp, .refl _⟩
    · left
      by_cases ho : op = .pollEvent
      · subst ho
        unfold pending at hp
        rw [pollEvent_probes] at hp
        exact ⟨p', hp, .refl _⟩
      · obtain ⟨new, _, hf⟩ := step_fate h op ho seq
        rw [hp] at hf
        generalize ho' : some p' = o' at hf
        cases hf with
        | kept q q' hpe hs => cases ho'; exact ⟨q, hpe, hs⟩
        | ended _ _ _ hn' =>
          subst ho'
          exfalso
          rcases hn' with hn' | ⟨q, hq, ⟨node, now, rfl, ho'⟩ | ⟨_, now, hn'⟩⟩
          · cases hn'
          · cases hq
            exact ping_not_detection hp ho' hk
          · rcases hn' with rfl | rfl
            · exact h1 ⟨_, rfl⟩
            · exact h2 ⟨_, rfl⟩

end Verif.Ep
