import Verif.Spec.Observe

/-! Lemmas on the observation channel. -/

namespace Verif.Observe

variable {E : Type}

/-- The bytes reserved for what the driver holds. -/
def Sender.reservedBytes (c : Setup E) : Sender E → Nat
  | .reserved e => c.weight e
  | .refused e => c.weight e
  | _ => 0

/-- The bytes not yet released of what the observer holds. -/
def Observer.reservedBytes (c : Setup E) : Observer E → Nat
  | .took e => c.weight e
  | _ => 0

/-- Every byte counted is accounted for. -/
def Accounts (c : Setup E) (s : State E) : Prop :=
  s.bytes = ((c.total s.chan + c.total s.overflow + s.sender.reservedBytes c + s.observer.reservedBytes c : Nat) : Int)

@[simp] theorem total_nil (c : Setup E) : c.total [] = 0 := rfl

@[simp] theorem total_append (c : Setup E) (a b : List E) : c.total (a ++ b) = c.total a + c.total b := by
  simp [Setup.total]

@[simp] theorem total_cons (c : Setup E) (e : E) (l : List E) : c.total (e :: l) = c.weight e + c.total l := by
  simp [Setup.total]

theorem Accounts.step {c : Setup E} {s : State E} (h : Accounts c s) (op : Op E) : Accounts c (s.step c op) := by
  unfold Accounts at h ⊢
  cases op with
  | offer e =>
    simp only [State.step]
    split
    · next hs =>
      rw [hs] at h
      split
      · simpa [hs] using h
      · simpa [Sender.reservedBytes] using h
    · exact h
  | send =>
    simp only [State.step]
    split
    · exact h
    · next e hs =>
      rw [hs] at h
      simp only [Sender.reservedBytes] at h ⊢
      omega
    · next e hs =>
      rw [hs] at h
      simp only [Sender.reservedBytes] at h
      split
      · simp only [Sender.reservedBytes, total_append, total_cons, total_nil]; omega
      · split
        · simp only [Sender.reservedBytes, total_append, total_cons, total_nil]; omega
        · simp only [Sender.reservedBytes]; omega
    · next e hs =>
      rw [hs] at h
      simp only [Sender.reservedBytes] at h ⊢
      omega
  | flush =>
    simp only [State.step]
    split
    · next e es hs ho =>
      rw [ho] at h
      split
      · simp only [total_append, total_cons, total_nil] at h ⊢; omega
      · rw [ho]; exact h
    · exact h
  | recv =>
    simp only [State.step]
    split
    · next e es hs ho =>
      rw [ho, hs] at h
      simp only [Observer.reservedBytes, total_cons] at h ⊢
      omega
    · exact h
  | observe p =>
    simp only [State.step]
    split
    · exact h
    · next e hs =>
      rw [hs] at h
      simp only [Observer.reservedBytes] at h ⊢
      omega
    · next e hs =>
      rw [hs] at h
      simp only [Observer.reservedBytes] at h
      cases p <;> simp only [Bool.false_eq_true, if_false, if_true] <;> (repeat' split) <;>
        simp only [Observer.reservedBytes] <;> omega
  | take =>
    simp only [State.step]
    split <;> exact h

/-- The counter keeps to the budget, with what the driver is about to reserve. -/
def Within (c : Setup E) (s : State E) : Prop :=
  ∀ b, c.budget = some b → s.bytes ≤ b ∧
    ∀ e n, s.sender = .checked e → c.payload e = some n → s.bytes + n ≤ b

theorem Within.step {c : Setup E} {s : State E} (h : Within c s) (op : Op E) :
    Within c (s.step c op) := by
  intro b hb
  obtain ⟨h1, h2⟩ := h b hb
  cases op with
  | offer e =>
    simp only [State.step]
    split
    · next hs =>
      split
      · refine ⟨h1, fun e' n he => ?_⟩
        simp only [hs] at he
        cases he
      · next ho =>
        refine ⟨h1, fun e' n he hn => ?_⟩
        simp only [Sender.checked.injEq] at he
        subst he
        unfold Setup.over at ho
        rw [hb, hn] at ho
        simp only [decide_eq_true_eq] at ho
        simp only
        omega
    · exact ⟨h1, h2⟩
  | send =>
    simp only [State.step]
    split
    · exact ⟨h1, h2⟩
    · next e hs =>
      refine ⟨?_, fun _ _ he => by cases he⟩
      simp only [Setup.weight]
      cases hp : c.payload e with
      | none => simpa using h1
      | some n => simpa using h2 e n hs hp
    · next e hs =>
      split
      · exact ⟨h1, fun _ _ he => by cases he⟩
      · split
        · exact ⟨h1, fun _ _ he => by cases he⟩
        · exact ⟨h1, fun _ _ he => by cases he⟩
    · next e hs =>
      refine ⟨?_, fun _ _ he => by cases he⟩
      simp only
      omega
  | flush =>
    simp only [State.step]
    split
    · split <;> exact ⟨h1, h2⟩
    · exact ⟨h1, h2⟩
  | recv =>
    simp only [State.step]
    split <;> exact ⟨h1, h2⟩
  | observe p =>
    simp only [State.step]
    split
    · exact ⟨h1, h2⟩
    · next e hs =>
      refine ⟨by simp only; omega, fun e' n he hn => ?_⟩
      have := h2 e' n he hn
      simp only
      omega
    · cases p <;> simp only [Bool.false_eq_true, if_false, if_true] <;> (repeat' split) <;> exact ⟨h1, h2⟩
  | take =>
    simp only [State.step]
    split <;> exact ⟨h1, h2⟩

/-- The queues keep to their capacities. -/
structure Sized (c : Setup E) (s : State E) : Prop where
  chan : ∀ n, c.cap = some n → s.chan.length ≤ n
  overflow : s.overflow.length ≤ overflowMax
  stream : s.stream.length ≤ c.streamCap

theorem room_chan {c : Setup E} {s : State E} (h : c.room s = true) (e : E) :
    ∀ n, c.cap = some n → (s.chan ++ [e]).length ≤ n := by
  intro n hn
  unfold Setup.room at h
  rw [hn] at h
  simp only [decide_eq_true_eq] at h
  simp only [List.length_append, List.length_cons, List.length_nil]
  omega

theorem Sized.step {c : Setup E} {s : State E} (h : Sized c s) (op : Op E) : Sized c (s.step c op) := by
  obtain ⟨h1, h2, h3⟩ := h
  cases op with
  | offer e =>
    simp only [State.step]
    split
    · split <;> exact ⟨h1, h2, h3⟩
    · exact ⟨h1, h2, h3⟩
  | send =>
    simp only [State.step]
    split
    · exact ⟨h1, h2, h3⟩
    · exact ⟨h1, h2, h3⟩
    · next e hs =>
      split
      · next hr => exact ⟨room_chan hr e, h2, h3⟩
      · split
        · next ho =>
          simp only [Bool.and_eq_true, decide_eq_true_eq] at ho
          exact ⟨h1, by simp only [List.length_append, List.length_cons, List.length_nil]; omega, h3⟩
        · exact ⟨h1, h2, h3⟩
    · exact ⟨h1, h2, h3⟩
  | flush =>
    simp only [State.step]
    split
    · next e es hs ho =>
      split
      · next hr =>
        refine ⟨room_chan hr e, ?_, h3⟩
        rw [ho] at h2
        simp only [List.length_cons] at h2
        simp only
        omega
      · exact ⟨h1, h2, h3⟩
    · exact ⟨h1, h2, h3⟩
  | recv =>
    simp only [State.step]
    split
    · next e es hs ho =>
      refine ⟨fun n hn => ?_, h2, h3⟩
      have := h1 n hn
      rw [ho] at this
      simp only [List.length_cons] at this
      simp only
      omega
    · exact ⟨h1, h2, h3⟩
  | observe p =>
    simp only [State.step]
    split
    · exact ⟨h1, h2, h3⟩
    · exact ⟨h1, h2, h3⟩
    · next e hs =>
      cases p <;> simp only [Bool.false_eq_true, if_false, if_true] <;> (repeat' split)
      all_goals first
        | exact ⟨h1, h2, h3⟩
        | (refine ⟨h1, h2, ?_⟩
           simp only [List.length_append, List.length_cons, List.length_nil]
           omega)
  | take =>
    simp only [State.step]
    split
    · exact ⟨h1, h2, h3⟩
    · next e es hs =>
      refine ⟨h1, h2, ?_⟩
      rw [hs] at h3
      simp only [List.length_cons] at h3
      simp only
      omega

/-- Every event told is somewhere, and drops are counted. -/
structure Traced (c : Setup E) (s : State E) : Prop where
  events : s.told.Perm (s.heard ++ s.underway ++ s.lost)
  drops : s.dropped = s.lost.length + s.panics
  control : ((s.heard ++ s.observer.held ++ s.chan ++ s.sender.held).filter c.control).Sublist
    (s.told.filter c.control)
  payload : ∀ e ∈ s.overflow, c.control e = false
  streamed : (s.taken ++ s.stream).Sublist (s.heard.filter c.control)
  forwarded : (s.taken ++ s.stream).length + s.streamDropped = (s.heard.filter c.control).length

theorem filter_control {c : Setup E} {e : E} (h : c.control e = false) : [e].filter c.control = [] := by
  simp [h]

theorem Traced.step {c : Setup E} {s : State E} (h : Traced c s) (op : Op E) : Traced c (s.step c op) := by
  classical
  obtain ⟨h1, h2, h3, h4, h5, h6⟩ := h
  rw [List.perm_iff_count] at h1
  simp only [State.underway, List.count_append] at h1
  simp only [List.filter_append] at h3
  cases op with
  | offer e =>
    simp only [State.step]
    split
    · next hs =>
      rw [hs] at h1 h3
      simp only [Sender.held, List.count_nil, List.filter_nil, List.append_nil] at h1 h3
      split
      · refine ⟨?_, by simp only [List.length_append, List.length_cons, List.length_nil]; omega, ?_, h4, h5, h6⟩
        · rw [List.perm_iff_count]
          intro a
          have := h1 a
          simp only [State.underway, List.count_append, hs, Sender.held, List.count_nil]
          omega
        · simp only [hs, Sender.held, List.filter_append, List.append_nil, List.filter_nil]
          exact h3.trans (List.sublist_append_left _ _)
      · refine ⟨?_, h2, ?_, h4, h5, h6⟩
        · rw [List.perm_iff_count]
          intro a
          have := h1 a
          simp only [State.underway, List.count_append, Sender.held]
          omega
        · simp only [Sender.held, List.filter_append]
          exact h3.append (List.Sublist.refl _)
    · refine ⟨List.perm_iff_count.mpr fun a => ?_, h2, by simpa only [List.filter_append, Sender.held, Observer.held] using h3, h4, h5, h6⟩
      simp only [State.underway, List.count_append]
      exact h1 a
  | send =>
    simp only [State.step]
    split
    · refine ⟨List.perm_iff_count.mpr fun a => ?_, h2, by simpa only [List.filter_append, Sender.held, Observer.held] using h3, h4, h5, h6⟩
      simp only [State.underway, List.count_append]
      exact h1 a
    · next e hs =>
      rw [hs] at h1 h3
      refine ⟨List.perm_iff_count.mpr fun a => ?_, h2, by simpa only [List.filter_append, Sender.held, Observer.held] using h3, h4, h5, h6⟩
      simp only [State.underway, List.count_append]
      exact h1 a
    · next e hs =>
      rw [hs] at h1 h3
      simp only [Sender.held] at h1 h3
      split
      · refine ⟨List.perm_iff_count.mpr fun a => ?_, h2, ?_, h4, h5, h6⟩
        · have := h1 a
          simp only [State.underway, List.count_append, Sender.held, List.count_nil]
          omega
        · simpa only [List.filter_append, Sender.held, List.filter_nil, List.append_nil, List.append_assoc] using h3
      · split
        · next ho =>
          simp only [Bool.and_eq_true, Option.isSome_iff_exists] at ho
          obtain ⟨⟨n, hn⟩, -⟩ := ho
          have hc : c.control e = false := by simp [Setup.control, hn]
          refine ⟨List.perm_iff_count.mpr fun a => ?_, h2, ?_, ?_, h5, h6⟩
          · have := h1 a
            simp only [State.underway, List.count_append, Sender.held, List.count_nil]
            omega
          · rw [filter_control hc] at h3
            simpa only [List.filter_append, Sender.held, List.filter_nil] using h3
          · intro x hx
            rcases List.mem_append.mp hx with hx | hx
            · exact h4 x hx
            · simp only [List.mem_singleton] at hx
              rw [hx]; exact hc
        · refine ⟨List.perm_iff_count.mpr fun a => ?_,
            by simp only [List.length_append, List.length_cons, List.length_nil]; omega, ?_, h4, h5, h6⟩
          · have := h1 a
            simp only [State.underway, List.count_append, Sender.held, List.count_nil]
            omega
          · simp only [List.filter_append, Sender.held, List.filter_nil, List.append_nil]
            exact (List.sublist_append_left _ _).trans h3
    · next e hs =>
      rw [hs] at h1 h3
      refine ⟨List.perm_iff_count.mpr fun a => ?_, h2, by simpa only [List.filter_append, Sender.held, Observer.held] using h3, h4, h5, h6⟩
      simp only [State.underway, List.count_append]
      exact h1 a
  | flush =>
    simp only [State.step]
    split
    · next e es hs ho =>
      split
      · have hc := h4 e (by rw [ho]; exact List.mem_cons_self)
        rw [ho] at h1
        refine ⟨List.perm_iff_count.mpr fun a => ?_, h2, ?_, fun x hx => h4 x (by rw [ho]; exact List.mem_cons_of_mem _ hx),
          h5, h6⟩
        · have := h1 a
          have e1 : List.count a (e :: es) = List.count a [e] + List.count a es := by
            rw [← List.count_append]; rfl
          simp only [State.underway, List.count_append]
          omega
        · simp only [List.filter_append, filter_control hc, List.append_nil]
          exact h3
      · refine ⟨List.perm_iff_count.mpr fun a => ?_, h2, by simpa only [List.filter_append, Sender.held, Observer.held] using h3, h4, h5, h6⟩
        simp only [State.underway, List.count_append]
        exact h1 a
    · refine ⟨List.perm_iff_count.mpr fun a => ?_, h2, by simpa only [List.filter_append, Sender.held, Observer.held] using h3, h4, h5, h6⟩
      simp only [State.underway, List.count_append]
      exact h1 a
  | recv =>
    simp only [State.step]
    split
    · next e es hs ho =>
      rw [ho, hs] at h1 h3
      simp only [Observer.held, List.count_nil, List.filter_nil, List.append_nil] at h1 h3
      refine ⟨List.perm_iff_count.mpr fun a => ?_, h2, ?_, h4, h5, h6⟩
      · have := h1 a
        have e1 : List.count a (e :: es) = List.count a [e] + List.count a es := by
          rw [← List.count_append]; rfl
        simp only [State.underway, List.count_append, Observer.held]
        omega
      · have e1 : (e :: es).filter c.control = [e].filter c.control ++ es.filter c.control := by
          rw [← List.filter_append]; rfl
        rw [e1] at h3
        simpa only [List.filter_append, Observer.held, List.append_assoc] using h3
    · refine ⟨List.perm_iff_count.mpr fun a => ?_, h2, by simpa only [List.filter_append, Sender.held, Observer.held] using h3, h4, h5, h6⟩
      simp only [State.underway, List.count_append]
      exact h1 a
  | observe p =>
    simp only [State.step]
    split
    · refine ⟨List.perm_iff_count.mpr fun a => ?_, h2, by simpa only [List.filter_append, Sender.held, Observer.held] using h3, h4, h5, h6⟩
      simp only [State.underway, List.count_append]
      exact h1 a
    · next e hs =>
      rw [hs] at h1 h3
      refine ⟨List.perm_iff_count.mpr fun a => ?_, h2, by simpa only [List.filter_append, Sender.held, Observer.held] using h3, h4, h5, h6⟩
      simp only [State.underway, List.count_append]
      exact h1 a
    · next e hs =>
      rw [hs] at h1 h3
      simp only [Observer.held] at h1 h3
      cases p <;> simp only [Bool.false_eq_true, if_false, if_true] <;> (repeat' split)
      all_goals
        refine ⟨List.perm_iff_count.mpr fun a => ?_, by simp only; omega, ?_, h4, ?_, ?_⟩
        · have := h1 a
          simp only [State.underway, List.count_append, Observer.held, List.count_nil]
          omega
        · simpa only [List.filter_append, Observer.held, List.filter_nil, List.append_nil] using h3
        · simp only [List.filter_append]
          first
            | exact h5.trans (List.sublist_append_left _ _)
            | (next hp _ =>
                have hc : [e].filter c.control = [e] := by
                  simp only [Bool.not_eq_true, Option.isSome_eq_false_iff] at hp
                  simp [Setup.control, hp]
                rw [hc, ← List.append_assoc]
                exact h5.append (List.Sublist.refl _))
        · simp only [List.filter_append, List.length_append] at h6 ⊢
          first
            | (next hp =>
                have hc : [e].filter c.control = [] := by
                  apply filter_control
                  obtain ⟨n, hn⟩ := Option.isSome_iff_exists.mp hp
                  simp [Setup.control, hn]
                rw [hc]
                simpa using h6)
            | (next hp _ =>
                have hc : [e].filter c.control = [e] := by
                  simp only [Bool.not_eq_true, Option.isSome_eq_false_iff] at hp
                  simp [Setup.control, hp]
                rw [hc]
                simp only [List.length_cons, List.length_nil]
                omega)
  | take =>
    simp only [State.step]
    split
    · refine ⟨List.perm_iff_count.mpr fun a => ?_, h2, by simpa only [List.filter_append, Sender.held, Observer.held] using h3, h4, h5, h6⟩
      simp only [State.underway, List.count_append]
      exact h1 a
    · next e es hs =>
      rw [hs] at h5 h6
      refine ⟨List.perm_iff_count.mpr fun a => ?_, h2, by simpa only [List.filter_append, Sender.held, Observer.held] using h3, h4, ?_, ?_⟩
      · simp only [State.underway, List.count_append]
        exact h1 a
      · simpa only [List.append_assoc, List.cons_append, List.nil_append] using h5
      · simpa only [List.append_assoc, List.cons_append, List.nil_append] using h6

theorem runs_keeps {c : Setup E} {P : State E → Prop} (h : ∀ s op, P s → P (s.step c op)) {s : State E} (h0 : P s)
    (ops : List (Op E)) : P (s.runs c ops) := by
  induction ops generalizing s with
  | nil => exact h0
  | cons op ops ih => exact ih (h s op h0)

theorem Reached.keeps {c : Setup E} {P : State E → Prop} {s : State E} (hr : Reached c s)
    (h : ∀ s op, P s → P (s.step c op)) (h0 : P {}) : P s := by
  obtain ⟨ops, rfl⟩ := hr
  exact runs_keeps h h0 ops

theorem Reached.accounts {c : Setup E} {s : State E} (hr : Reached c s) : Accounts c s :=
  hr.keeps (fun _ op h => Accounts.step h op) (by simp [Accounts, Sender.reservedBytes, Observer.reservedBytes])

theorem Reached.within {c : Setup E} {s : State E} (hr : Reached c s) : Within c s :=
  hr.keeps (fun _ op h => Within.step h op) (fun b _ => ⟨by simp, fun _ _ he => by cases he⟩)

theorem Reached.sized {c : Setup E} {s : State E} (hr : Reached c s) : Sized c s :=
  hr.keeps (fun _ op h => Sized.step h op) ⟨by simp, by simp, by simp⟩

theorem Reached.traced {c : Setup E} {s : State E} (hr : Reached c s) : Traced c s :=
  hr.keeps (fun _ op h => Traced.step h op)
    ⟨by simp [State.underway, Sender.held, Observer.held], rfl, by simp [Sender.held, Observer.held], by simp, by simp,
     by simp⟩

end Verif.Observe
