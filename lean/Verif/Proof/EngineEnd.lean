import Verif.Proof.EngineBook
/-
The engine at the end of a pump: no ready socket is left unused while it is wanted, and no deadline has passed.
-/
namespace Verif.Engine
open Verif Coord Spec
variable {I A C S : Type}

section
variable [DecidableEq C] {E : EEnv S C A}

/-- No socket winds down beyond its time. -/
def Due (now : Nat) (g : Engine I A C S) : Prop := ∀ c d, g.closing.get? c = some d → now < d

/-- No connection drains beyond its time. -/
def Drains (now : Nat) (g : Engine I A C S) : Prop :=
  ∀ x k d, g.conns.get? x = some k → k.closeDeadline = some d → now < d

theorem Due.of {now : Nat} {g g' : Engine I A C S} (h : Due now g) (e : g'.closing = g.closing) : Due now g' := by
  unfold Due; rw [e]; exact h

theorem Due.put {now : Nat} {g g' : Engine I A C S} (h : Due now g) {c : C} {t : Nat} (ht : 0 < t)
    (e : g'.closing = g.closing.insert c (now + t)) : Due now g' := by
  intro c' d hd
  rw [e, Map.get?_insert] at hd
  split at hd
  · cases hd; omega
  · exact h c' d hd

/-! ### Winding down -/

theorem reapOne_closing (g : Engine I A C S) (now : Nat) (c : C) : (reapOne E now g c).closing = g.closing ∨
    (reapOne E now g c).closing = g.closing.erase c := by
  unfold reapOne
  split
  · exact .inl rfl
  · split
    · exact .inr rfl
    · split
      · exact .inr rfl
      · exact .inl rfl

theorem reapOne_due (g : Engine I A C S) (now : Nat) (c : C) {d : Nat}
    (h : (reapOne E now g c).closing.get? c = some d) : now < d := by
  unfold reapOne at h
  split at h
  · next hc => rw [hc] at h; cases h
  · next d' hc =>
    split at h
    · simp only [give, note, Map.get?_erase, if_true] at h; cases h
    · split at h
      · simp only [give, note, Engine.abort, Map.get?_erase, if_true] at h; cases h
      · next hn => rw [hc] at h; cases h; omega

theorem reapFold_due (now : Nat) (l : List C) (g : Engine I A C S) (c : C) (d : Nat)
    (h : (l.foldl (reapOne E now) g).closing.get? c = some d) : g.closing.get? c = some d ∧ (c ∈ l → now < d) := by
  induction l generalizing g with
  | nil => exact ⟨h, fun h => by cases h⟩
  | cons a l ih =>
    rw [List.foldl_cons] at h
    obtain ⟨h1, h2⟩ := ih _ h
    refine ⟨?_, fun hm => ?_⟩
    · rcases reapOne_closing (E := E) g now a with e | e
      · rw [e] at h1; exact h1
      · rw [e, Map.get?_erase] at h1
        split at h1
        · cases h1
        · exact h1
    · rcases List.mem_cons.1 hm with e | hm
      · subst e; exact reapOne_due g now c h1
      · exact h2 hm

theorem reapClosing_due (g : Engine I A C S) (now : Nat) : Due now (g.reapClosing E now) := by
  intro c d h
  obtain ⟨h1, h2⟩ := reapFold_due now _ _ c d h
  exact h2 ((E.orderC_perm _ _).mem_iff.2 (by
    rw [Map.mem_keys_iff]
    simp only [] at h1
    rw [h1]; rfl))

theorem ensureListener_closing (g : Engine I A C S) : (g.ensureListener E).closing = g.closing := by
  unfold ensureListener
  split
  · rfl
  · split <;> rfl

theorem teardown_due {g : Engine I A C S} {now : Nat} (ht : 0 < E.closeTimeout) (h : Due now g) (x : Nat) :
    Due now (g.teardown E x now) := by
  unfold teardown
  split
  · exact h
  · split
    · exact h.of rfl
    · simp only []
      split
      · exact h.of rfl
      · split
        · exact h.put ht rfl
        · split
          · exact h.of rfl
          · split
            · exact h.put ht rfl
            · exact h.of rfl

theorem abortExchange_closing (g : Engine I A C S) (x : Nat) : (g.abortExchange E x).closing = g.closing := by
  unfold abortExchange
  split
  · rfl
  · simp only []
    split <;> rfl

theorem settle_due {g : Engine I A C S} {now : Nat} (ht : 0 < E.closeTimeout) (h : Due now g) (io : S) (a : Nat × Outcome C) :
    Due now (settle E io now g a) := by
  unfold settle
  split
  · exact h.put ht rfl
  · exact h.of rfl
  · exact h.of rfl

theorem fold_due {α : Type} (f : Engine I A C S → α → Engine I A C S) {now : Nat}
    (hf : ∀ g a, Due now g → Due now (f g a)) (l : List α) (g : Engine I A C S) (h : Due now g) : Due now (l.foldl f g) := by
  induction l generalizing g with
  | nil => exact h
  | cons a l ih => exact ih _ (hf g a h)

theorem writeOne_closing (g : Engine I A C S) (x : Nat) : (writeOne E g x).closing = g.closing := by
  unfold writeOne
  split
  · rfl
  · split
    · rfl
    · split <;> rfl

theorem shutOne_closing (io : S) (g : Engine I A C S) (x : Nat) : (shutOne E io g x).closing = g.closing := by
  unfold shutOne
  split
  · rfl
  · split <;> rfl

theorem flushClosing_due {g : Engine I A C S} {now : Nat} (ht : 0 < E.closeTimeout) (h : Due now g) :
    Due now (g.flushClosing E now) :=
  fold_due _ (fun _ a h => settle_due ht h _ a) _ _ (h.of rfl)

theorem flushShutdowns_due {g : Engine I A C S} {now : Nat} (h : Due now g) : Due now (g.flushShutdowns E) :=
  fold_due _ (fun g a h => h.of (shutOne_closing _ g a)) _ _ (h.of rfl)

/-! ### Draining -/

theorem settle_get (io : S) (now : Nat) (g : Engine I A C S) (a : Nat × Outcome C) {y : Nat} (h : y ≠ a.1) :
    (settle E io now g a).conns.get? y = g.conns.get? y := by
  unfold settle
  split
  · show (Map.erase g.conns _).get? _ = _
    rw [Map.get?_erase, if_neg (fun e => h e.symm)]
  · show (Map.erase g.conns _).get? _ = _
    rw [Map.get?_erase, if_neg (fun e => h e.symm)]
  · simp only []
    rw [Map.get?_modify, if_neg (fun e => h e.symm)]

theorem settle_self (io : S) {now : Nat} (ht : 0 < E.closeTimeout) (g : Engine I A C S) (a : Nat × Outcome C) {k : Wired A C} {d : Nat}
    (h : (settle E io now g a).conns.get? a.1 = some k) (hd : k.closeDeadline = some d) : now < d := by
  unfold settle at h
  split at h
  · change (Map.erase g.conns _).get? _ = _ at h
    rw [Map.get?_erase, if_pos rfl] at h; cases h
  · change (Map.erase g.conns _).get? _ = _ at h
    rw [Map.get?_erase, if_pos rfl] at h; cases h
  · simp only [] at h
    rw [Map.get?_modify, if_pos rfl] at h
    obtain ⟨k', _, rfl⟩ := Option.map_eq_some_iff.1 h
    cases hd; omega

theorem settleFold_drains (io : S) {now : Nat} (ht : 0 < E.closeTimeout) (l : List (Nat × Outcome C)) (g : Engine I A C S)
    (h : ∀ x k d, g.conns.get? x = some k → k.closeDeadline = some d → now < d ∨ x ∈ l.map Prod.fst) :
    Drains now (l.foldl (settle E io now) g) := by
  induction l generalizing g with
  | nil =>
    intro x k d h1 h2
    rcases h x k d h1 h2 with h | h
    · exact h
    · cases h
  | cons a l ih =>
    rw [List.foldl_cons]
    refine ih _ (fun x k d h1 h2 => ?_)
    by_cases e : x = a.1
    · subst e; exact .inl (settle_self io ht g a h1 h2)
    · rw [settle_get _ _ _ _ e] at h1
      rcases h x k d h1 h2 with h | h
      · exact .inl h
      · rw [List.map_cons, List.mem_cons] at h
        exact .inr (h.resolve_left e)

/-- A connection that drains has its deadline set. -/
def Lined (g : Engine I A C S) : Prop :=
  ∀ x k, g.conns.get? x = some k → k.closeDeadline ≠ none → k.state = .closing ∧ k.socket ≠ none

theorem flushClosing_drains {g : Engine I A C S} {now : Nat} (ht : 0 < E.closeTimeout) (hl : Lined g) :
    Drains now (g.flushClosing E now) := by
  refine settleFold_drains _ ht _ _ (fun x k d h1 h2 => ?_)
  simp only [] at h1
  obtain ⟨h3, h4⟩ := hl x k h1 (by rw [h2]; simp)
  cases ho : outcome E g.io now k with
  | some o =>
    right
    refine List.mem_map.2 ⟨(x, o), List.mem_filterMap.2 ⟨x, ?_, ?_⟩, rfl⟩
    · refine (E.order_perm _ _).mem_iff.2 ?_
      rw [Map.mem_keys_iff, h1]; rfl
    · rw [h1, Option.bind_some, ho]; rfl
  | none =>
    left
    unfold outcome at ho
    rw [if_neg (by simp [h3])] at ho
    split at ho
    · next hs => exact absurd hs h4
    · simp only [] at ho
      split at ho
      · cases ho
      · split at ho
        · cases ho
        · split at ho
          · cases ho
          · next hn =>
            rw [h2] at hn
            simp at hn
            omega
end

section
variable [DecidableEq I] [DecidableEq A] [DecidableEq C]
variable {cfg : Cfg I A} {env : Env I A} {X : XCfg} {T : TEnv} {E : EEnv S C A}

theorem call_keep {g g1 : Engine I A C S} {op : XOp I A} {o : XOut I A} (h : g.call cfg env X T op = (g1, o)) :
    g1.closing = g.closing ∧ g1.conns = g.conns ∧ g1.listener = g.listener ∧ g1.pool = g.pool ∧ g1.io = g.io := by
  have := congrArg Prod.fst h
  simp only [] at this
  rw [← this]
  exact ⟨rfl, rfl, rfl, rfl, rfl⟩

theorem checkListener_closing (g : Engine I A C S) (now : Nat) :
    (g.checkListener cfg env X T E now).closing = g.closing := by
  unfold checkListener
  split
  · rfl
  · split
    · rfl
    · split
      · rw [ensureListener_closing]; rfl
      · split
        · next h =>
          rw [ensureListener_closing]
          exact (call_keep h).1
        · next h =>
          rw [ensureListener_closing]
          exact (call_keep h).1

theorem dial_keep (g : Engine I A C S) (x : Nat) (peer : A) (c : C) (now : Nat) :
    (g.dial cfg env X T E x peer c now).closing = g.closing ∧ (g.dial cfg env X T E x peer c now).listener = g.listener ∧
    ((g.dial cfg env X T E x peer c now).conns.get? x = none ∨
      (g.dial cfg env X T E x peer c now).conns.get? x = g.conns.get? x) := by
  unfold dial
  have hf : ∀ g : Engine I A C S, (g.dialFail cfg env X T E x c now).closing = g.closing ∧
      (g.dialFail cfg env X T E x c now).listener = g.listener ∧
      (g.dialFail cfg env X T E x c now).conns.get? x = none := by
    intro g
    refine ⟨rfl, rfl, ?_⟩
    show (Map.erase g.conns x).get? x = _
    rw [Map.get?_erase, if_pos rfl]
  split
  · exact ⟨(hf g).1, (hf g).2.1, .inl (hf g).2.2⟩
  · split
    · exact ⟨(hf g).1, (hf g).2.1, .inl (hf g).2.2⟩
    · simp only []
      split
      · exact ⟨rfl, rfl, .inr rfl⟩
      · exact ⟨(hf _).1, (hf _).2.1, .inl (hf _).2.2⟩

/-- What the loop that gives sockets to waiting dials leaves behind. -/
theorem assign_spec (now : Nat) (l : List (Nat × A)) (g : Engine I A C S) :
    (assign cfg env X T E now l g).closing = g.closing ∧ (assign cfg env X T E now l g).listener = g.listener ∧
    (∀ t, Drains t g → Drains t (assign cfg env X T E now l g)) ∧
    ((∀ x k, g.conns.get? x = some k → k.state = .pendingDial → x ∈ l.map Prod.fst) →
      (∀ x k, (assign cfg env X T E now l g).conns.get? x = some k → k.state ≠ .pendingDial) ∨
      takeReady (E.io.reuseReady (assign cfg env X T E now l g).io) (assign cfg env X T E now l g).pool = none) ∧
    (takeReady (E.io.reuseReady g.io) g.pool = none → assign cfg env X T E now l g = g) := by
  induction l generalizing g with
  | nil =>
    refine ⟨rfl, rfl, fun _ h => h, fun h => .inl (fun x k hk hs => ?_), fun _ => rfl⟩
    exact absurd (h x k hk hs) List.not_mem_nil
  | cons e l ih =>
    obtain ⟨x, peer⟩ := e
    unfold assign
    cases hp : takeReady (E.io.reuseReady g.io) g.pool with
    | none => exact ⟨rfl, rfl, fun _ h => h, fun _ => .inr hp, fun _ => rfl⟩
    | some cp =>
      obtain ⟨c, pool⟩ := cp
      simp only []
      generalize hg1 : ({ g with pool := pool, conns := g.conns.modify x (fun k =>
            { k with socket := some c, state := .dialing }) } : Engine I A C S) = g1
      obtain ⟨d1, d2, d3⟩ := dial_keep (cfg := cfg) (env := env) (X := X) (T := T) (E := E) g1 x peer c now
      have d4 : ∀ y, y ≠ x → (g1.dial cfg env X T E x peer c now).conns.get? y = g.conns.get? y := by
        intro y hy
        rw [dial_other _ _ _ _ _ hy, ← hg1]
        simp only []
        rw [Map.get?_modify, if_neg (fun e => hy e.symm)]
      have d5 : g1.conns.get? x = (g.conns.get? x).map (fun k => { k with socket := some c, state := .dialing }) := by
        rw [← hg1]
        simp only []
        rw [Map.get?_modify, if_pos rfl]
      obtain ⟨i1, i2, i3, i4, _⟩ := ih (g1.dial cfg env X T E x peer c now)
      refine ⟨i1.trans (d1.trans (by rw [← hg1])), i2.trans (d2.trans (by rw [← hg1])), fun t h => i3 t ?_, fun h => i4 ?_,
        fun h => by cases h⟩
      · intro y k d hy hd
        by_cases e : y = x
        · subst e
          rcases d3 with d3 | d3
          · rw [d3] at hy; cases hy
          · rw [d3, d5] at hy
            obtain ⟨k', h1, rfl⟩ := Option.map_eq_some_iff.1 hy
            exact h y k' d h1 hd
        · rw [d4 y e] at hy
          exact h y k d hy hd
      · intro y k hy hs
        by_cases e : y = x
        · subst e
          rcases d3 with d3 | d3
          · rw [d3] at hy; cases hy
          · rw [d3, d5] at hy
            obtain ⟨k', h1, rfl⟩ := Option.map_eq_some_iff.1 hy
            cases hs
        · rw [d4 y e] at hy
          have := h y k hy hs
          rw [List.map_cons, List.mem_cons] at this
          exact this.resolve_left e

/-- What a pool that was given out leaves behind. -/
def Served (E : EEnv S C A) (g : Engine I A C S) : Prop :=
  (∃ c ∈ g.pool, E.io.reuseReady g.io c = true) →
    g.listener ≠ none ∧ ∀ x k, g.conns.get? x = some k → k.state ≠ .pendingDial

theorem rebalance_spec {g : Engine I A C S} (hn : g.conns.NodupKeys) (now : Nat) :
    (g.rebalance cfg env X T E now).closing = g.closing ∧
    (∀ t, Drains t g → Drains t (g.rebalance cfg env X T E now)) ∧ Served E (g.rebalance cfg env X T E now) := by
  have h1 := ensureListener_closing (E := E) g
  have hc : (g.ensureListener E).conns = g.conns := by
    unfold ensureListener
    split
    · rfl
    · split <;> rfl
  have h2 : (g.ensureListener E).listener = none →
      takeReady (E.io.reuseReady (g.ensureListener E).io) (g.ensureListener E).pool = none := by
    unfold ensureListener
    split
    · next h => intro h'; rw [h] at h'; cases h'
    · split
      · next h => intro _; exact h
      · intro h; cases h
  obtain ⟨_, _, h3⟩ := waiting_spec (g := g.ensureListener E) (by rw [hc]; exact hn)
  obtain ⟨a1, a2, a3, a4, a5⟩ := assign_spec (cfg := cfg) (env := env) (X := X) (T := T) (E := E) now
    (g.ensureListener E).waiting (g.ensureListener E)
  refine ⟨a1.trans h1, fun t h => a3 t (by unfold Drains; rw [hc]; exact h), ?_⟩
  rintro ⟨c, hc1, hc2⟩
  have hnone : ¬ takeReady (E.io.reuseReady (g.rebalance cfg env X T E now).io) (g.rebalance cfg env X T E now).pool = none := by
    intro h
    have := takeReady_none h c hc1
    rw [hc2] at this; cases this
  refine ⟨fun hl => hnone ?_, (a4 h3).resolve_right hnone⟩
  have hl' : (g.ensureListener E).listener = none := a2.symm.trans hl
  have := a5 (h2 hl')
  show takeReady (E.io.reuseReady (assign cfg env X T E now (g.ensureListener E).waiting (g.ensureListener E)).io)
    (assign cfg env X T E now (g.ensureListener E).waiting (g.ensureListener E)).pool = none
  rw [this]; exact h2 hl'

theorem ingest_closing (now fuel : Nat) (g : Engine I A C S) : (ingest cfg env X T now fuel g).closing = g.closing := by
  induction fuel generalizing g with
  | zero => rfl
  | succ fuel ih =>
    unfold ingest
    split
    · next g1 src raw h =>
      rw [ih]
      have h1 : g1.closing = g.closing := (call_keep h).1
      rw [← h1]
      generalize received cfg env X T g1.coord.ring raw = l
      clear h1 h
      induction l generalizing g1 with
      | nil => rfl
      | cons m l ih2 => rw [List.foldl_cons, ih2]; rfl
    · next h => exact (call_keep h).1

theorem readAll_closing (now x : Nat) (c : C) (fuel : Nat) (g : Engine I A C S) :
    (readAll cfg env X T E now x c fuel g).closing = g.closing := by
  induction fuel generalizing g with
  | zero => rfl
  | succ fuel ih =>
    unfold readAll
    simp only []
    split
    · rw [ih]; rfl
    · split
      · rfl
      · split
        · rfl
        · split <;> rfl

theorem drainActions_due {now : Nat} (ht : 0 < E.closeTimeout) (fuel : Nat) (g : Engine I A C S) (h : Due now g) :
    Due now (drainActions cfg env X T E now fuel g) := by
  induction fuel generalizing g with
  | zero => exact h.of rfl
  | succ fuel ih =>
    unfold drainActions
    split
    · next g1 x peer sid hc =>
      have h1 : g1.closing = g.closing := (call_keep hc).1
      simp only []
      split
      · exact ih _ (h.of ((dial_keep _ _ _ _ _).1.trans h1))
      · exact ih _ (h.of h1)
    · next g1 x hc =>
      have h1 : g1.closing = g.closing := (call_keep hc).1
      exact ih _ (h.of h1)
    · next g1 x hc =>
      have h1 : g1.closing = g.closing := (call_keep hc).1
      exact ih _ (teardown_due ht (h.of h1) x)
    · next g1 x hc =>
      have h1 : g1.closing = g.closing := (call_keep hc).1
      exact ih _ (h.of ((abortExchange_closing _ _).trans h1))
    · next g1 o _ _ _ _ hc =>
      have h1 : g1.closing = g.closing := (call_keep hc).1
      exact h.of h1

theorem fetchOut_closing (fuel : Nat) (g : Engine I A C S) : (fetchOut cfg env X T fuel g).closing = g.closing := by
  induction fuel generalizing g with
  | zero => rfl
  | succ fuel ih =>
    unfold fetchOut
    split
    · next g1 x p b hc =>
      have h1 : g1.closing = g.closing := (call_keep hc).1
      split
      · rw [ih]; exact h1
      · rw [ih]; exact h1
    · next g1 o _ hc => exact (call_keep hc).1

theorem drainTransmits_keep (fuel : Nat) (g : Engine I A C S) :
    (drainTransmits cfg env X T E fuel g).closing = g.closing ∧ (drainTransmits cfg env X T E fuel g).conns = g.conns ∧
    (drainTransmits cfg env X T E fuel g).listener = g.listener ∧ (drainTransmits cfg env X T E fuel g).pool = g.pool ∧
    (drainTransmits cfg env X T E fuel g).io = g.io := by
  induction fuel generalizing g with
  | zero => exact ⟨rfl, rfl, rfl, rfl, rfl⟩
  | succ fuel ih =>
    unfold drainTransmits
    split
    · next g1 t hc =>
      have h1 : g1.closing = g.closing ∧ g1.conns = g.conns ∧ g1.listener = g.listener ∧ g1.pool = g.pool ∧ g1.io = g.io :=
        call_keep hc
      have h2 : (g1.sendDatagram env X T E t).closing = g1.closing ∧ (g1.sendDatagram env X T E t).conns = g1.conns ∧
          (g1.sendDatagram env X T E t).listener = g1.listener ∧ (g1.sendDatagram env X T E t).pool = g1.pool ∧
          (g1.sendDatagram env X T E t).io = g1.io := by
        unfold sendDatagram
        split
        · exact ⟨rfl, rfl, rfl, rfl, rfl⟩
        · split
          · exact ⟨rfl, rfl, rfl, rfl, rfl⟩
          · simp only []
            split
            · exact ⟨rfl, rfl, rfl, rfl, rfl⟩
            · split <;> exact ⟨rfl, rfl, rfl, rfl, rfl⟩
      obtain ⟨i1, i2, i3, i4, i5⟩ := ih (g1.sendDatagram env X T E t)
      exact ⟨i1.trans (h2.1.trans h1.1), i2.trans (h2.2.1.trans h1.2.1), i3.trans (h2.2.2.1.trans h1.2.2.1),
        i4.trans (h2.2.2.2.1.trans h1.2.2.2.1), i5.trans (h2.2.2.2.2.trans h1.2.2.2.2)⟩
    · next g1 o _ hc => exact call_keep hc

theorem dialSeeds_closing (g : Engine I A C S) (now : Nat) : (g.dialSeeds cfg env X T now).closing = g.closing := by
  unfold dialSeeds
  split
  · rfl
  · suffices ∀ (l : List A) (h : Engine I A C S), (l.foldl (fun g seed =>
        (g.call cfg env X T (.startPushPull seed .join now)).1) h).closing = h.closing from this _ _
    intro l
    induction l with
    | nil => exact fun _ => rfl
    | cons a l ih => intro h; rw [List.foldl_cons, ih]; rfl

/-- A step of an exchange sets the deadline of a connection exactly when it starts to drain. -/
def EV.Lined (v : EV A C) : Prop := ∀ k, v.k = some k → k.closeDeadline ≠ none → k.state = .closing

omit [DecidableEq A] [DecidableEq C] in
theorem EV.Lined.step {v v' : EV A C} (h : EV.Lined v) (hs : EStep v v') : EV.Lined v' := by
  cases hs with
  | refl => exact h
  | accept c peer => rintro k ⟨⟩ h; exact absurd rfl h
  | connect peer sid => rintro k ⟨⟩ h; exact absurd rfl h
  | dialOk _ k c hk hst => rintro k' ⟨⟩ h2; have := h k hk h2; rw [hst] at this; cases this
  | dialGone => rintro k ⟨⟩
  | downNone _ t hk => intro k h2; exact h k h2
  | shutdown _ k hk => rintro k' ⟨⟩ h2; exact h k hk h2
  | closing _ k m d hk => rintro k' ⟨⟩ h2; rfl
  | torn => rintro k ⟨⟩
  | tornShut => rintro k ⟨⟩
  | wound => rintro k ⟨⟩
  | dropped => rintro k ⟨⟩
  | fetch _ k b hk => rintro k' ⟨⟩ h2; exact h k hk h2
  | lost _ b hk => intro k h2; exact h k h2
  | read _ k b hk => intro k h2; exact h k h2
  | eof _ k hk => rintro k' ⟨⟩ h2; exact h k hk h2
  | write _ k out w hk => rintro k' ⟨⟩ h2; exact h k hk h2
  | promote _ k hk hst => rintro k' ⟨⟩ h2; have := h k hk h2; rw [hst] at this; cases this
  | shut _ k hk _ hst => rintro k' ⟨⟩ h2; have := h k hk h2; rw [hst] at this; cases this
  | progress _ k m d hk hst _ => rintro k' ⟨⟩ h2; exact hst

variable {e0 : Ep I A} {cmp0 : CmpOptions} {io0 : S} {handles : List C} {listener : Option C}

theorem lined {t0 : Nat} (hnew : Ep.tryNew cfg env t0 = .ok e0) {g : Engine I A C S}
    (hr : Reached cfg env X T E e0 cmp0 io0 handles listener g) : Lined g := by
  have key : ∀ x, EV.Lined (ev g x) := by
    intro x
    induction hr with
    | refl => rintro k ⟨⟩
    | @snoc b c hr hm ih => exact ih.step (ev_step hnew hr hm (pipe hnew hr x))
  intro x k hk hd
  have h1 := key x k hk hd
  refine ⟨h1, fun h2 => ?_⟩
  have := ((pipe hnew hr x).sock k hk).1 h2
  rw [h1] at this; cases this

/-- The engine after a pump the model followed to its end. -/
theorem pump_end {t0 : Nat} (hnew : Ep.tryNew cfg env t0 = .ok e0) {g : Engine I A C S}
    (hr : Reached cfg env X T E e0 cmp0 io0 handles listener g) (now : Nat) (datagrams : List (A × Bytes))
    (hc : (g.pump cfg env X T E now datagrams).cut = false) :
    Served E (g.pump cfg env X T E now datagrams) ∧ (0 < E.closeTimeout →
      Due now (g.pump cfg env X T E now datagrams) ∧ Drains now (g.pump cfg env X T E now datagrams)) := by
  have go : ∀ g1 : Engine I A C S, Reached cfg env X T E e0 cmp0 io0 handles listener g1 → ∀ n,
      (0 < E.closeTimeout → Due now g1) →
      Served E (drainTransmits cfg env X T E n ((g1.flushClosing E now).rebalance cfg env X T E now)) ∧
      (0 < E.closeTimeout →
        Due now (drainTransmits cfg env X T E n ((g1.flushClosing E now).rebalance cfg env X T E now)) ∧
        Drains now (drainTransmits cfg env X T E n ((g1.flushClosing E now).rebalance cfg env X T E now))) := by
    intro g1 hr1 n hd
    have hn : g1.conns.NodupKeys := nodup_moves hr1 Map.nodup_nil
    have hn2 := nodup_moves (P := Tame E) (flushClosing_moves (cfg := cfg) (env := env) (X := X) (T := T) (E := E) hn now) hn
    obtain ⟨r1, r2, r3⟩ := rebalance_spec (cfg := cfg) (env := env) (X := X) (T := T) (E := E) hn2 now
    obtain ⟨d1, d2, d3, d4, d5⟩ := drainTransmits_keep (cfg := cfg) (env := env) (X := X) (T := T) (E := E) n
      ((g1.flushClosing E now).rebalance cfg env X T E now)
    refine ⟨?_, fun ht => ⟨?_, ?_⟩⟩
    · unfold Served; rw [d2, d3, d4, d5]; exact r3
    · exact ((flushClosing_due ht (hd ht)).of r1).of d1
    · unfold Drains; rw [d2]; exact r2 now (flushClosing_drains ht (lined hnew hr1))
  have hn : g.conns.NodupKeys := nodup_moves hr Map.nodup_nil
  unfold pump at hc ⊢
  simp only [] at hc ⊢
  generalize hg1 : g.reapClosing E now = g1 at *
  have m1 : EMoves cfg env X T E g g1 := hg1 ▸ (reapClosing_moves g now).plain
  have c1 : Due now g1 := hg1 ▸ reapClosing_due g now
  generalize hg2 : g1.checkListener cfg env X T E now = g2 at *
  have m2 := m1.trans (hg2 ▸ (checkListener_moves g1 now).plain : EMoves cfg env X T E g1 g2)
  have c2 : Due now g2 := c1.of (hg2 ▸ checkListener_closing g1 now)
  generalize hg3 : g2.rebalance cfg env X T E now = g3 at *
  have m3 := m2.trans (hg3 ▸ (rebalance_moves (nodup_moves m2 hn) now).plain : EMoves cfg env X T E g2 g3)
  have c3 : Due now g3 := c2.of (hg3 ▸ (rebalance_spec (nodup_moves m2 hn) now).1)
  have hfold : ∀ (l : List (A × Bytes)) (h : Engine I A C S), EMoves cfg env X T E h (l.foldl (fun g d =>
      if E.blocked d.1 then g else (g.call cfg env X T (.gossip d.1 d.2 now)).1) h) ∧ (l.foldl (fun g d =>
      if E.blocked d.1 then g else (g.call cfg env X T (.gossip d.1 d.2 now)).1) h).closing = h.closing := by
    intro l
    induction l with
    | nil => exact fun h => ⟨.refl _, rfl⟩
    | cons d l ih =>
      intro h
      rw [List.foldl_cons]
      split
      · exact ih h
      · next hb =>
        obtain ⟨i1, i2⟩ := ih (h.call cfg env X T (.gossip d.1 d.2 now)).1
        exact ⟨(EMovesP.one (.call h _ (by simpa [Plain] using hb))).trans i1, i2⟩
  obtain ⟨f1, f2⟩ := hfold datagrams g3
  generalize datagrams.foldl (fun g d => if E.blocked d.1 then g else (g.call cfg env X T (.gossip d.1 d.2 now)).1) g3 = g4 at *
  have m4 := m3.trans f1
  have c4 : Due now g4 := c3.of f2
  generalize hg5 : ingest cfg env X T now (g4.coord.ingress.length + 1) g4 = g5 at *
  have m5 := m4.trans (hg5 ▸ (ingest_moves now _ g4).plain : EMoves cfg env X T E g4 g5)
  have c5 : Due now g5 := c4.of (hg5 ▸ ingest_closing now _ g4)
  generalize hg6 : g5.pumpIn cfg env X T E now = g6 at *
  have m6 := m5.trans (hg6 ▸ (pumpIn_moves g5 now).plain : EMoves cfg env X T E g5 g6)
  have c6 : Due now g6 := by
    rw [← hg6]
    refine fold_due _ (fun g a h => ?_) _ _ (c5.of rfl)
    split
    · exact h
    · exact h.of (readAll_closing _ _ _ _ _)
  split at hc
  · next h6 => rw [h6] at hc; cases hc
  next h6 =>
  rw [if_neg h6]
  generalize hg7 : g6.dialSeeds cfg env X T now = g7 at *
  have m7 := m6.trans (hg7 ▸ (dialSeeds_moves g6 now).mono (fun _ => mild_plain) : EMoves cfg env X T E g6 g7)
  have c7 : Due now g7 := c6.of (hg7 ▸ dialSeeds_closing g6 now)
  have m8 := m7.trans (EMovesP.one (.call (E := E) g7 (.timeout now) trivial))
  have c8 : Due now (g7.call cfg env X T (.timeout now)).1 := c7.of rfl
  generalize (g7.call cfg env X T (.timeout now)).1 = g8 at *
  have hcon := drainActions_connects (cfg := cfg) (env := env) (X := X) (T := T) (E := E) now E.fuel g8
  have cdue : 0 < E.closeTimeout → Due now (drainActions cfg env X T E now E.fuel g8) := fun ht => drainActions_due ht _ _ c8
  have m9 := m8.trans (drainActions_moves (cfg := cfg) (env := env) (X := X) (T := T) (E := E) now E.fuel g8 (nodup_moves m8 hn)).plain
  generalize drainActions cfg env X T E now E.fuel g8 = g9 at *
  split at hc
  · next h9 => rw [h9] at hc; cases hc
  next h9 =>
  rw [if_neg h9]
  have m10 := m9.trans (EMovesP.one (.promote (cfg := cfg) (env := env) (X := X) (T := T) g9))
  have hcon10 : (g9.promoteEstablished E).coord.connects = [] := hcon (by simpa using h9)
  have m11 := m10.trans (pumpOut_moves _ hcon10).plain
  have c11 : (( g9.promoteEstablished E).pumpOut cfg env X T E).closing = g9.closing := by
    have hw : ∀ (l : List Nat) (h : Engine I A C S), (l.foldl (writeOne E) h).closing = h.closing := by
      intro l
      induction l with
      | nil => exact fun _ => rfl
      | cons a l ih => intro h; rw [List.foldl_cons, ih, writeOne_closing]
    unfold pumpOut
    simp only []
    rw [hw]
    exact fetchOut_closing _ _
  have m12 := m11.trans (flushShutdowns_moves (nodup_moves m11 hn)).plain
  exact go _ (hr.trans m12) _ (fun ht => flushShutdowns_due ((cdue ht).of c11))

end

end Verif.Engine
