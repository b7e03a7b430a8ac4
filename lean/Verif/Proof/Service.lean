import Verif.Proof.Outcome
/-
What servicing the timers at an instant leaves behind.
-/
namespace Verif.Ep
open Verif Core Spec
variable {I A : Type} [DecidableEq I] [DecidableEq A]
variable {cfg : Cfg I A} {env : Env I A}

/-- Folding over distinct keys a function that touches only its own entry of a table. -/
theorem foldl_own {σ β : Type} (g : σ → Nat → Option β) (f : σ → Nat → σ) (g0 : Nat → Option β)
    (P : Nat → Option β → Prop) (hother : ∀ e s s', s' ≠ s → g (f e s) s' = g e s')
    (l : List Nat) (hnd : l.Nodup) (h : ∀ e s, s ∈ l → g e s = g0 s → P s (g (f e s) s))
    (e : σ) (he : ∀ s ∈ l, g e s = g0 s) :
    ∀ s, (s ∈ l → P s (g (l.foldl f e) s)) ∧ (s ∉ l → g (l.foldl f e) s = g e s) := by
  induction l generalizing e with
  | nil => intro s; simp
  | cons x l ih =>
    obtain ⟨hx, hnd⟩ := List.nodup_cons.1 hnd
    have hih := ih hnd (fun e s hs => h e s (List.mem_cons_of_mem _ hs)) (f e x)
      (fun s hs => by rw [hother e x s (by rintro rfl; exact hx hs)]; exact he s (List.mem_cons_of_mem _ hs))
    intro s
    refine ⟨fun hs => ?_, fun hs => ?_⟩
    · rcases List.mem_cons.1 hs with rfl | hs
      · rw [List.foldl_cons, (hih s).2 hx]
        exact h e s (by simp) (he s (by simp))
      · exact (hih s).1 hs
    · simp only [List.mem_cons, not_or] at hs
      rw [List.foldl_cons, (hih s).2 hs.2, hother e x s hs.1]

theorem terminate_own (e : Ep I A) (seq now : Nat) :
    (e.probeTerminateFailure cfg env seq now).net.probes.get? seq = none := by
  rcases terminate_probes (cfg := cfg) (env := env) e seq now with h | ⟨h1, h⟩
  · rw [h, Map.get?_erase, if_pos rfl]
  · rw [h]; exact h1

/-- A probe whose relays are asked, or that fails instead. -/
theorem fanOut_own (e : Ep I A) (seq now : Nat) (p : Probe I A) (hp : e.net.probes.get? seq = some p) :
    (e.fanOut cfg env seq now).net.probes.get? seq = none ∨
      ∃ peers st, now < p.failureDeadline ∧ (e.fanOut cfg env seq now).net.probes.get? seq =
        some { p with dispatched := true, phase := .indirect peers.length peers [] st p.failureDeadline } := by
  unfold fanOut
  rw [hp]
  dsimp only
  split
  · exact .inl (terminate_own _ _ _)
  · rename_i hlt
    unfold fanOutTo
    dsimp only
    split
    · exact .inl (terminate_own _ _ _)
    · right
      have hpr : ∀ (r : Ep I A × List A) (st : Option Nat), r.1.net.probes = e.net.probes →
          (r.1.net.probes.modify seq (fun p => { p with
            dispatched := true, phase := .indirect r.2.length r.2 [] st p.failureDeadline })).get? seq =
          some { p with dispatched := true, phase := .indirect r.2.length r.2 [] st p.failureDeadline } := by
        intro r st hr
        rw [Map.get?_modify, if_pos rfl, hr, hp]; rfl
      exact ⟨_, _, by omega, hpr _ _ (by rw [askRelays_net, startFallback_probes]; rfl)⟩

theorem due_none {p : Probe I A} {now : Nat} (h : probeDue cfg p now = none) (hok : ProbeOk cfg p) :
    now < p.deadline ∧ now < p.failureDeadline := by
  unfold probeDue at h
  unfold Probe.deadline
  cases hph : p.phase with
  | direct d =>
    have hd := hok.direct d hph
    rw [hph] at h
    dsimp only at h ⊢
    split at h
    · cases h
    · split at h
      · cases hk : p.kind <;> rw [hk] at h <;> cases h
      · rename_i h1 h2
        unfold Probe.directDeadline at h2
        rw [hd, Nat.lt_min]
        omega
  | indirect ex ps nb st d =>
    have hd := (hok.indirect _ _ _ _ _ hph).2.2.2.2.2.2.1
    rw [hph] at h
    dsimp only at h ⊢
    split at h
    · cases h
    · rw [hd]; omega

/-- After the probes were advanced, the deadlines of those still pending lie ahead. -/
theorem advance_serviced (e : Ep I A) (now : Nat) (hn : NetOk cfg e.net) {seq : Nat} {p : Probe I A}
    (hp : (e.advanceProbes cfg env now).net.probes.get? seq = some p) :
    now < p.deadline ∧ now < p.failureDeadline := by
  have key : ∀ q, (e.advanceProbes cfg env now).net.probes.get? seq = some q →
      now < q.deadline ∧ now < q.failureDeadline := by
    unfold advanceProbes
    dsimp only
    have hk : (env.order e.tick (e.net.probes.map Prod.fst)).Nodup :=
      (env.order_perm _ _).nodup_iff.2 hn.pn
    have hmem : ∀ s q, e.net.probes.get? s = some q → s ∈ env.order e.tick (e.net.probes.map Prod.fst) := by
      intro s q hs
      rw [(env.order_perm _ _).mem_iff]
      exact List.mem_map.2 ⟨(s, q), Map.mem_of_get? hs, rfl⟩
    generalize env.order e.tick (e.net.probes.map Prod.fst) = keys at hk hmem
    have h1 := foldl_own (fun (e : Ep I A) s => e.net.probes.get? s) (fun e s => e.fanOut cfg env s now)
      (fun s => e.net.probes.get? s) (fun s o => ∀ q, o = some q → now < q.deadline ∧ now < q.failureDeadline)
      (fun e s s' h => fanOut_other e s now s' h)
      (keys.filter (fun s => match e.net.probes.get? s with
        | some p => probeDue cfg p now == some true
        | none => false)) (hk.filter _)
      (fun e' s hs he' q hq => by
        simp only [List.mem_filter] at hs
        cases hp : e.net.probes.get? s with
        | none => rw [hp] at hs; simp at hs
        | some p =>
          rw [hp] at he'
          rcases fanOut_own (cfg := cfg) (env := env) e' s now p he' with h | ⟨ps, st, hlt, h⟩
          · rw [h] at hq; cases hq
          · rw [h] at hq; cases hq
            exact ⟨hlt, hlt⟩)
      e.tickUp (fun s _ => rfl)
    have h2 := foldl_own (fun (e : Ep I A) s => e.net.probes.get? s) (fun e s => e.probeTerminateFailure cfg env s now)
      (fun s => e.net.probes.get? s) (fun s o => o = none)
      (fun e s s' h => terminate_other e s now s' h)
      (keys.filter (fun s => match e.net.probes.get? s with
        | some p => probeDue cfg p now == some false
        | none => false)) (hk.filter _)
      (fun e' s hs he' => terminate_own e' s now)
      (List.foldl (fun e s => e.fanOut cfg env s now) e.tickUp
        (keys.filter (fun s => match e.net.probes.get? s with
        | some p => probeDue cfg p now == some true
        | none => false)))
      (fun s hs => by
        refine ((h1 s).2 ?_).trans rfl
        intro hs'
        simp only [List.mem_filter] at hs hs'
        cases hp : e.net.probes.get? s with
        | none => rw [hp] at hs; simp at hs
        | some p =>
          rw [hp] at hs hs'
          have a := hs.2; have b := hs'.2
          simp only [beq_iff_eq] at a b
          rw [a] at b; cases b)
    intro q hq
    by_cases hm2 : seq ∈ keys.filter (fun s => match e.net.probes.get? s with
        | some p => probeDue cfg p now == some false
        | none => false)
    · have := ((h2 seq).1 hm2).symm.trans hq
      cases this
    · have hq := ((h2 seq).2 hm2).symm.trans hq
      by_cases hm1 : seq ∈ keys.filter (fun s => match e.net.probes.get? s with
        | some p => probeDue cfg p now == some true
        | none => false)
      · exact (h1 seq).1 hm1 q hq
      · have hq' : e.net.probes.get? seq = some q := ((h1 seq).2 hm1).symm.trans hq
        have hin := hmem seq q hq'
        simp only [List.mem_filter, hq', hin, true_and, beq_iff_eq] at hm1 hm2
        refine due_none (cfg := cfg) ?_ (hn.ok _ _ hq')
        cases hd : probeDue cfg q now with
        | none => rfl
        | some b => cases b <;> simp_all
  exact key p hp

theorem reachable_micros_ends {e : Ep I A} (hg : Good cfg e.core) (hn : NetOk cfg e.net) {now : Nat}
    (hl : e.core.lifecycle = .running) :
    Good cfg (timeoutEnds cfg env e now).core ∧ NetOk cfg (timeoutEnds cfg env e now).net := by
  have h := timeoutEnds_micros (cfg := cfg) (env := env) e now (op := .timeout now) rfl hl hn.pn hn.fn
  exact micros_induct (Q := fun e => Good cfg e.core ∧ NetOk cfg e.net) h.1 hg hn ⟨hg, hn⟩
    (fun a b hg ha _ hm => ⟨micro_good hm hg, ha.micro hm⟩)

theorem fireExpiredForwards_probes (e : Ep I A) (now : Nat) :
    (e.fireExpiredForwards env now).net.probes = e.net.probes := by
  rw [fireExpiredForwards_eq]
  have : ∀ (l : List Nat) (e : Ep I A), (l.foldl expireForward e).net.probes = e.net.probes := by
    intro l
    induction l with
    | nil => intro e; rfl
    | cons x l ih =>
      intro e
      rw [List.foldl_cons, ih]
      unfold expireForward
      split <;> rfl
  rw [this]; rfl

/-- What retiring a fallback leaves of a probe. -/
def Retired (p p' : Probe I A) : Prop :=
  p'.failureDeadline = p.failureDeadline ∧ p'.deadline = p.deadline ∧ p'.kind = p.kind

theorem dropIntent_retired (n : Net I A) (id seq : Nat) (p' : Probe I A)
    (h : (dropIntent n id).probes.get? seq = some p') : ∃ p, n.probes.get? seq = some p ∧ Retired p p' := by
  have ret : ∀ (m : Net I A) (s : Nat), m.probes = n.probes → (retireFallback m s).probes.get? seq = some p' →
      ∃ p, n.probes.get? seq = some p ∧ Retired p p' := by
    intro m s hm h
    unfold retireFallback at h
    dsimp only at h
    rw [Map.get?_modify, hm] at h
    split at h
    · cases hp : n.probes.get? seq with
      | none => rw [hp] at h; cases h
      | some p =>
        rw [hp] at h
        refine ⟨p, rfl, ?_⟩
        simp only [Option.map_some, Option.some.injEq] at h
        subst h
        unfold Retired Probe.deadline
        cases hph : p.phase <;> simp [hph]
    · exact ⟨p', h, rfl, rfl, rfl⟩
  unfold dropIntent at h
  split at h
  · exact ⟨p', h, rfl, rfl, rfl⟩
  · dsimp only at h
    split at h
    · exact ret _ _ rfl h
    · exact ⟨p', h, rfl, rfl, rfl⟩

theorem fireExpiredIntents_retired (e : Ep I A) (now seq : Nat) (p' : Probe I A)
    (h : (e.fireExpiredIntents env now).net.probes.get? seq = some p') :
    ∃ p, e.net.probes.get? seq = some p ∧ Retired p p' := by
  unfold fireExpiredIntents at h
  dsimp only at h
  have : ∀ (l : List Nat) (e : Ep I A),
      (l.foldl (fun e id => ({ e with net := dropIntent e.net id } : Ep I A)) e).net.probes.get? seq = some p' →
      ∃ p, e.net.probes.get? seq = some p ∧ Retired p p' := by
    intro l
    induction l with
    | nil => intro e h; exact ⟨p', h, rfl, rfl, rfl⟩
    | cons x l ih =>
      intro e h
      rw [List.foldl_cons] at h
      obtain ⟨q, hq, h1⟩ := ih _ h
      obtain ⟨r, hr, h2⟩ := dropIntent_retired e.net x seq q hq
      exact ⟨r, hr, h1.1.trans h2.1, h1.2.1.trans h2.2.1, h1.2.2.trans h2.2.2⟩
  exact this _ e.tickUp h

/-- After the first part of `handle_timeout`, the deadlines of the pending probes lie ahead. -/
theorem ends_serviced (e : Ep I A) (now : Nat) (hn : NetOk cfg e.net) {seq : Nat} {p : Probe I A}
    (hp : (timeoutEnds cfg env e now).net.probes.get? seq = some p) : now < p.deadline ∧ now < p.failureDeadline := by
  unfold timeoutEnds at hp
  obtain ⟨q, hq, h1, h2, _⟩ := fireExpiredIntents_retired _ _ _ _ hp
  rw [fireExpiredForwards_probes] at hq
  have := advance_serviced ({ e with core := e.core.fireExpiredSuspicions cfg env now } : Ep I A) now hn hq
  rw [h1, h2]; exact this

/-- A ping pending after the timers were serviced has not reached its deadline. -/
theorem timeout_ping_pending {e : Ep I A} (h : Reachable cfg env e) (hl : e.core.lifecycle = .running) (now : Nat)
    {seq : Nat} {p : Probe I A} (hp : pending (e.step cfg env (.timeout now)).1 seq = some p) (hk : p.kind = .ping) :
    now < p.failureDeadline := by
  have hn := reachable_netOk h
  have key : ∀ seq p, (e.step cfg env (.timeout now)).1.net.probes.get? seq = some p → p.kind = .ping →
      now < p.failureDeadline := by
    refine step_micro_induct2 (Q := fun _ => True)
      (R := fun e => ∀ seq p, e.net.probes.get? seq = some p → p.kind = .ping → now < p.failureDeadline)
      h (.timeout now) trivial (fun _ _ _ _ _ _ => trivial) ?_ ?_
    · rintro a rfl _ _ _ seq p hp _
      simp only [stepEnds, if_pos hl] at hp
      exact (ends_serviced e now hn hp).2
    · intro a b _ ha hr hm seq p hp hk
      cases micro_slot hm ha seq with
      | none h h' => rw [h'] at hp; cases hp
      | kept q q' h h' hs =>
        rw [h'] at hp; cases hp
        rw [hs.deadline]
        exact hr seq q h (hs.kind ▸ hk)
      | started q ak h h' hw hlt =>
        rw [h'] at hp; cases hp
        rcases hw with ⟨node, t, ho, _⟩ | ⟨m, t, _, _, _, rfl⟩
        · cases ho
        · cases hk
      | failed q t h h' hw he hlt => cases hlt
      | done q d pl t h h' hd hw he hlt => cases hlt
  exact key seq p hp hk

end Verif.Ep
