import Verif.Spec.Pending

/-!
Lemmas behind C123: one waiting call is followed through a history.
-/

namespace Verif.Pending

variable {A N : Type}

theorem answersTo_append (c : Nat) (a b : List (Nat × Answer A)) :
    answersTo c (a ++ b) = answersTo c a ++ answersTo c b := by simp [answersTo]

theorem answersTo_none {c : Nat} {l : List (Nat × Answer A)} (h : c ∉ l.map Prod.fst) : answersTo c l = [] := by
  simp only [answersTo, List.filterMap_eq_nil_iff]
  intro x hx
  have : x.1 ≠ c := by
    rintro rfl
    exact h (List.mem_map_of_mem hx)
  simp [this]

theorem runs_append (d : Driver A) (a b : List (Op A)) :
    d.runs (a ++ b) = (((d.runs a).1.runs b).1, (d.runs a).2 ++ ((d.runs a).1.runs b).2) := by
  induction a generalizing d with
  | nil => simp [Driver.runs]
  | cons x xs ih => simp [Driver.runs, ih]

/-- What `settle` leaves: each call is an old one with fewer exchanges, and so is the finished one. -/
theorem settle_from (f : N → N) (eid : Nat) (l : List (Batch N)) :
    (∀ b ∈ (settle f eid l).1, ∃ a ∈ l, a.caller = b.caller ∧ ∀ e ∈ b.eids, e ∈ a.eids) ∧
      ∀ b ∈ (settle f eid l).2, ∃ a ∈ l, a.caller = b.caller := by
  induction l with
  | nil => simp [settle]
  | cons x xs ih =>
    by_cases hx : eid ∈ x.eids
    · by_cases he : x.eids.filter (· ≠ eid) = []
      · have hs : settle f eid (x :: xs) = (xs, some { x with eids := x.eids.filter (· ≠ eid), note := f x.note }) := by
          simp only [settle, hx, if_true, he]
        rw [hs]
        refine ⟨fun b hb => ⟨b, List.mem_cons_of_mem _ hb, rfl, fun _ h => h⟩, ?_⟩
        intro b hb
        simp only [Option.mem_def, Option.some.injEq] at hb
        subst hb
        exact ⟨x, List.mem_cons_self, rfl⟩
      · have hs : settle f eid (x :: xs) =
            ({ x with eids := x.eids.filter (· ≠ eid), note := f x.note } :: xs, none) := by
          simp only [settle, hx, if_true, he, if_false]
        rw [hs]
        refine ⟨fun b hb => ?_, by simp⟩
        rcases List.mem_cons.mp hb with rfl | hb
        · exact ⟨x, List.mem_cons_self, rfl, fun e he => (List.mem_filter.mp he).1⟩
        · exact ⟨b, List.mem_cons_of_mem _ hb, rfl, fun _ h => h⟩
    · have hs : settle f eid (x :: xs) = (x :: (settle f eid xs).1, (settle f eid xs).2) := by
        simp only [settle, hx, if_false]
      rw [hs]
      refine ⟨fun b hb => ?_, fun b hb => ?_⟩
      · rcases List.mem_cons.mp hb with rfl | hb
        · exact ⟨b, List.mem_cons_self, rfl, fun _ h => h⟩
        · obtain ⟨a, ha, h⟩ := ih.1 b hb
          exact ⟨a, List.mem_cons_of_mem _ ha, h⟩
      · obtain ⟨a, ha, h⟩ := ih.2 b hb
        exact ⟨a, List.mem_cons_of_mem _ ha, h⟩

/-- The call `b` is in the table once, and no other there is from its caller or holds one of its exchanges. -/
def Alone (b : Batch N) (l : List (Batch N)) : Prop :=
  ∃ l₁ l₂, l = l₁ ++ b :: l₂ ∧ ∀ c ∈ l₁ ++ l₂, c.caller ≠ b.caller ∧ ∀ e ∈ c.eids, e ∉ b.eids

theorem settle_skip (f : N → N) (eid : Nat) (l₁ l₂ : List (Batch N)) (h : ∀ c ∈ l₁, eid ∉ c.eids) :
    settle f eid (l₁ ++ l₂) = (l₁ ++ (settle f eid l₂).1, (settle f eid l₂).2) := by
  induction l₁ with
  | nil => rfl
  | cons x xs ih =>
    have hx := h x List.mem_cons_self
    simp only [List.cons_append, settle, hx, if_false]
    rw [ih fun c hc => h c (List.mem_cons_of_mem _ hc)]

/-- An exchange of `b` finishes. -/
theorem settle_hit (f : N → N) (eid : Nat) (b : Batch N) (l : List (Batch N)) (h : Alone b l) (he : eid ∈ b.eids) :
    (b.eids.filter (· ≠ eid) = [] →
      (∃ x, (settle f eid l).2 = some x ∧ x.caller = b.caller ∧ x.note = f b.note) ∧
        b.caller ∉ (settle f eid l).1.map Batch.caller) ∧
    (b.eids.filter (· ≠ eid) ≠ [] →
      (settle f eid l).2 = none ∧
        Alone { b with eids := b.eids.filter (· ≠ eid), note := f b.note } (settle f eid l).1) := by
  obtain ⟨l₁, l₂, rfl, ho⟩ := h
  rw [settle_skip f eid l₁ _ fun c hc hm => (ho c (List.mem_append_left _ hc)).2 _ hm he]
  refine ⟨fun h0 => ?_, fun h0 => ?_⟩
  · have hs : settle f eid (b :: l₂) = (l₂, some { b with eids := b.eids.filter (· ≠ eid), note := f b.note }) := by
      simp only [settle, he, if_true, h0]
    rw [hs]
    refine ⟨⟨_, rfl, rfl, rfl⟩, fun hm => ?_⟩
    obtain ⟨c, hc, hcc⟩ := List.mem_map.mp hm
    exact (ho c hc).1 hcc
  · have hs : settle f eid (b :: l₂) =
        ({ b with eids := b.eids.filter (· ≠ eid), note := f b.note } :: l₂, none) := by
      simp only [settle, he, if_true, h0, if_false]
    rw [hs]
    exact ⟨rfl, l₁, l₂, rfl, fun c hc => ⟨(ho c hc).1, fun e hm hb => (ho c hc).2 e hm (List.mem_filter.mp hb).1⟩⟩

/-- An exchange of another finishes. -/
theorem settle_miss (f : N → N) (eid : Nat) (b : Batch N) (l : List (Batch N)) (h : Alone b l) (he : eid ∉ b.eids) :
    (∀ x ∈ (settle f eid l).2, x.caller ≠ b.caller) ∧ Alone b (settle f eid l).1 := by
  obtain ⟨l₁, l₂, rfl, ho⟩ := h
  induction l₁ with
  | nil =>
    have hs : settle f eid (b :: l₂) = (b :: (settle f eid l₂).1, (settle f eid l₂).2) := by
      simp only [settle, he, if_false]
    simp only [List.nil_append] at ho ⊢
    rw [hs]
    refine ⟨fun x hx => ?_, [], (settle f eid l₂).1, rfl, fun c hc => ?_⟩
    · obtain ⟨a, ha, hac⟩ := (settle_from f eid l₂).2 x hx
      rw [← hac]
      exact (ho a ha).1
    · obtain ⟨a, ha, hac, hsub⟩ := (settle_from f eid l₂).1 c hc
      exact ⟨hac ▸ (ho a ha).1, fun e hm => (ho a ha).2 e (hsub e hm)⟩
  | cons x xs ih =>
    have hox := ho x (by simp)
    have hrest : ∀ c ∈ xs ++ l₂, c.caller ≠ b.caller ∧ ∀ e ∈ c.eids, e ∉ b.eids := fun c hc =>
      ho c (List.mem_cons_of_mem _ hc)
    by_cases hx : eid ∈ x.eids
    · by_cases h0 : x.eids.filter (· ≠ eid) = []
      · have hs : settle f eid (x :: xs ++ b :: l₂) =
            (xs ++ b :: l₂, some { x with eids := x.eids.filter (· ≠ eid), note := f x.note }) := by
          simp only [List.cons_append, settle, hx, if_true, h0]
        rw [hs]
        refine ⟨fun y hy => ?_, xs, l₂, rfl, hrest⟩
        simp only [Option.mem_def, Option.some.injEq] at hy
        subst hy
        exact hox.1
      · have hs : settle f eid (x :: xs ++ b :: l₂) =
            ({ x with eids := x.eids.filter (· ≠ eid), note := f x.note } :: (xs ++ b :: l₂), none) := by
          simp only [List.cons_append, settle, hx, if_true, h0, if_false]
        rw [hs]
        refine ⟨by simp, { x with eids := x.eids.filter (· ≠ eid), note := f x.note } :: xs, l₂, rfl, fun c hc => ?_⟩
        rcases List.mem_cons.mp hc with rfl | hc
        · exact ⟨hox.1, fun e hm => hox.2 e (List.mem_filter.mp hm).1⟩
        · exact hrest c hc
    · have hs : settle f eid (x :: xs ++ b :: l₂) =
          (x :: (settle f eid (xs ++ b :: l₂)).1, (settle f eid (xs ++ b :: l₂)).2) := by
        simp only [List.cons_append, settle, hx, if_false]
      rw [hs]
      obtain ⟨h1, m₁, m₂, hm, h2⟩ := ih hrest
      refine ⟨h1, x :: m₁, m₂, by simp [hm], fun c hc => ?_⟩
      rcases List.mem_cons.mp hc with rfl | hc
      · exact hox
      · exact h2 c hc

theorem Alone.push {b : Batch N} {l : List (Batch N)} (h : Alone b l) (x : Batch N) (hc : x.caller ≠ b.caller)
    (he : ∀ e ∈ x.eids, e ∉ b.eids) : Alone b (l ++ [x]) := by
  obtain ⟨l₁, l₂, rfl, ho⟩ := h
  refine ⟨l₁, l₂ ++ [x], by simp, fun c hcm => ?_⟩
  rw [← List.append_assoc] at hcm
  rcases List.mem_append.mp hcm with hcm | hcm
  · exact ho c hcm
  · simp only [List.mem_singleton] at hcm
    subst hcm
    exact ⟨hc, he⟩

theorem alone_new (l : List (Batch N)) (x : Batch N) (hc : x.caller ∉ l.map Batch.caller)
    (he : ∀ c ∈ l, ∀ e ∈ c.eids, e ∉ x.eids) : Alone x (l ++ [x]) :=
  ⟨l, [], rfl, fun c hcm => by
    simp only [List.append_nil] at hcm
    exact ⟨fun h => hc (h ▸ List.mem_map_of_mem hcm), he c hcm⟩⟩

/-- Those waiting. -/
def Driver.waiting (d : Driver A) : List Nat := d.joins.map Batch.caller ++ d.sends.map Batch.caller ++ d.leavers

theorem settle_callers (f : N → N) (eid : Nat) (l : List (Batch N)) (c : Nat)
    (h : c ∈ (settle f eid l).1.map Batch.caller ∨ ∃ x ∈ (settle f eid l).2, x.caller = c) :
    c ∈ l.map Batch.caller := by
  rcases h with h | ⟨x, hx, rfl⟩
  · obtain ⟨b, hb, rfl⟩ := List.mem_map.mp h
    obtain ⟨a, ha, hac, _⟩ := (settle_from f eid l).1 b hb
    exact hac ▸ List.mem_map_of_mem ha
  · obtain ⟨a, ha, hac⟩ := (settle_from f eid l).2 x hx
    exact hac ▸ List.mem_map_of_mem ha

/-- Whoever is answered or waits after a step waited before or called in it. -/
theorem step_from (d : Driver A) (op : Op A) (c : Nat)
    (h : c ∈ (d.step op).1.waiting ∨ c ∈ (d.step op).2.map Prod.fst) : c ∈ d.waiting ∨ c ∈ callers [op] := by
  cases op with
  | join k r run es =>
    simp only [Driver.step] at h
    split at h
    · simp [Driver.waiting, callers] at h ⊢; grind
    split at h
    · simp [Driver.waiting, callers] at h ⊢; grind
    split at h
    · simp [Driver.waiting, callers] at h ⊢; grind
    split at h
    · simp [Driver.waiting, callers] at h ⊢; grind
    · simp [Driver.waiting, callers] at h ⊢; grind
  | send k r run es =>
    simp only [Driver.step] at h
    split at h
    · simp [Driver.waiting, callers] at h ⊢; grind
    split at h
    · simp [Driver.waiting, callers] at h ⊢; grind
    split at h
    · simp [Driver.waiting, callers] at h ⊢; grind
    split at h
    · simp [Driver.waiting, callers] at h ⊢; grind
    split at h
    · simp [Driver.waiting, callers] at h ⊢; grind
    · simp [Driver.waiting, callers] at h ⊢; grind
  | leave k run ok =>
    simp only [Driver.step] at h
    split at h
    · simp [Driver.waiting, callers] at h ⊢; grind
    split at h
    · simp [Driver.waiting, callers] at h ⊢; grind
    split at h
    · simp [Driver.waiting, callers] at h ⊢; grind
    · simp [Driver.waiting, callers] at h ⊢; grind
  | pushPull e p ok =>
    left
    have := settle_callers (fun n : JoinNote A => if ok then { n with contacted := n.contacted ++ [p] } else n) e d.joins c
    simp only [Driver.step, Driver.waiting, List.mem_append, List.map_map] at h ⊢
    rcases h with ((h | h) | h) | h
    · exact .inl (.inl (this (.inl h)))
    · exact .inl (.inr h)
    · exact .inr h
    · obtain ⟨x, hx, rfl⟩ := List.mem_map.mp h
      exact .inl (.inl (this (.inr ⟨x, Option.mem_toList.mp hx, rfl⟩)))
  | userMessage e ok =>
    left
    have := settle_callers (fun n : Nat => if ok then n else n + 1) e d.sends c
    simp only [Driver.step, Driver.waiting, List.mem_append, List.map_map] at h ⊢
    rcases h with ((h | h) | h) | h
    · exact .inl (.inl h)
    · exact .inl (.inr (this (.inl h)))
    · exact .inr h
    · obtain ⟨x, hx, rfl⟩ := List.mem_map.mp h
      exact .inl (.inr (this (.inr ⟨x, Option.mem_toList.mp hx, rfl⟩)))
  | left =>
    simp [Driver.step, Driver.waiting] at h ⊢; grind
  | stop =>
    simp [Driver.step, Driver.waiting] at h ⊢; grind

theorem callers_cons (op : Op A) (ops : List (Op A)) : callers (op :: ops) = callers [op] ++ callers ops := by
  show List.filterMap _ (op :: ops) = List.filterMap _ [op] ++ List.filterMap _ ops
  rw [← List.filterMap_append]; rfl

theorem joinStarted_cons (op : Op A) (ops : List (Op A)) :
    joinStarted (op :: ops) = joinStarted [op] ++ joinStarted ops := by
  simp [joinStarted]

theorem sendStarted_cons (op : Op A) (ops : List (Op A)) :
    sendStarted (op :: ops) = sendStarted [op] ++ sendStarted ops := by
  simp [sendStarted]

theorem runs_from (d : Driver A) (ops : List (Op A)) (c : Nat)
    (h : c ∈ (d.runs ops).1.waiting ∨ c ∈ (d.runs ops).2.map Prod.fst) : c ∈ d.waiting ∨ c ∈ callers ops := by
  induction ops generalizing d with
  | nil => exact .inl (by simpa [Driver.runs] using h)
  | cons op ops ih =>
    rw [callers_cons, List.mem_append]
    have hs := step_from d op c
    have hi := ih (d.step op).1
    simp only [Driver.runs, List.map_append, List.mem_append] at h
    grind

/-- Who neither waits nor calls is not answered. -/
theorem runs_silent (d : Driver A) (ops : List (Op A)) (c : Nat) (hw : c ∉ d.waiting) (hc : c ∉ callers ops) :
    answersTo c (d.runs ops).2 = [] :=
  answersTo_none fun h => (runs_from d ops c (.inr h)).elim hw hc

theorem answersTo_alone (b : Batch N) (l : List (Batch N)) (h : Alone b l) (g : Batch N → Answer A) :
    answersTo b.caller (l.map fun x => (x.caller, g x)) = [g b] := by
  obtain ⟨l₁, l₂, rfl, ho⟩ := h
  have hno : ∀ m : List (Batch N), (∀ c ∈ m, c.caller ≠ b.caller) →
      answersTo b.caller (m.map fun x => (x.caller, g x)) = [] := by
    intro m hm
    apply answersTo_none
    simp only [List.map_map, List.mem_map, Function.comp]
    rintro ⟨c, hc, h⟩
    exact hm c hc h
  rw [List.map_append, List.map_cons, answersTo_append]
  rw [hno l₁ fun c hc => (ho c (List.mem_append_left _ hc)).1]
  have := hno l₂ fun c hc => (ho c (List.mem_append_right _ hc)).1
  simp only [answersTo] at this ⊢
  simp [this]

theorem answersTo_done (c : Nat) (o : Option (Batch N)) (g : Batch N → Answer A) (h : ∀ x ∈ o, x.caller ≠ c) :
    answersTo c (o.toList.map fun x => (x.caller, g x)) = [] := by
  apply answersTo_none
  simp only [List.map_map, List.mem_map, Function.comp, Option.mem_toList]
  rintro ⟨x, hx, hc⟩
  exact h x hx hc

/-- The join `b` waits. -/
structure JoinHeld (b : Batch (JoinNote A)) (d : Driver A) : Prop where
  alone : Alone b d.joins
  sends : b.caller ∉ d.sends.map Batch.caller
  leavers : b.caller ∉ d.leavers
  running : d.stopped = false

/-- The send `b` waits. -/
structure SendHeld (b : Batch Nat) (d : Driver A) : Prop where
  alone : Alone b d.sends
  joins : b.caller ∉ d.joins.map Batch.caller
  leavers : b.caller ∉ d.leavers
  running : d.stopped = false

/-- The leave of `c` waits. -/
structure LeaveHeld (c : Nat) (d : Driver A) : Prop where
  once : d.leavers.count c = 1
  joins : c ∉ d.joins.map Batch.caller
  sends : c ∉ d.sends.map Batch.caller
  running : d.stopped = false

/-- The commands of others and the events of other kinds leave a waiting join as it is. -/
theorem joinHeld_other (b : Batch (JoinNote A)) (d : Driver A) (op : Op A) (h : JoinHeld b d)
    (hc : b.caller ∉ callers [op]) (he : ∀ e ∈ joinStarted [op], e ∉ b.eids) (hs : op ≠ .stop)
    (hp : ∀ e p ok, op ≠ .pushPull e p ok) :
    JoinHeld b (d.step op).1 ∧ answersTo b.caller (d.step op).2 = [] := by
  obtain ⟨ha, hsn, hl, hr⟩ := h
  cases op with
  | join k r run es =>
    have hk : k ≠ b.caller := by rintro rfl; simp [callers] at hc
    simp only [joinStarted, List.map_cons, List.map_nil, List.flatten_cons, List.flatten_nil, List.append_nil] at he
    simp only [Driver.step, hr, Bool.false_eq_true, if_false]
    split
    · exact ⟨⟨ha, hsn, hl, hr⟩, by simp [answersTo, hk]⟩
    split
    · exact ⟨⟨ha, hsn, hl, hr⟩, by simp [answersTo, hk]⟩
    split
    · exact ⟨⟨ha, hsn, hl, hr⟩, by simp [answersTo, hk]⟩
    · exact ⟨⟨ha.push _ hk he, hsn, hl, rfl⟩, rfl⟩
  | send k r run es =>
    have hk : k ≠ b.caller := by rintro rfl; simp [callers] at hc
    simp only [Driver.step, hr, Bool.false_eq_true, if_false]
    split
    · exact ⟨⟨ha, hsn, hl, hr⟩, by simp [answersTo, hk]⟩
    split
    · exact ⟨⟨ha, hsn, hl, hr⟩, by simp [answersTo, hk]⟩
    split
    · exact ⟨⟨ha, hsn, hl, hr⟩, by simp [answersTo, hk]⟩
    split
    · exact ⟨⟨ha, hsn, hl, hr⟩, by simp [answersTo, hk]⟩
    · exact ⟨⟨ha, by
        rw [List.map_append, List.mem_append]
        rintro (h | h)
        · exact hsn h
        · simp at h; exact hk h.symm, hl, rfl⟩, rfl⟩
  | leave k run ok =>
    have hk : k ≠ b.caller := by rintro rfl; simp [callers] at hc
    simp only [Driver.step, hr, Bool.false_eq_true, if_false]
    split
    · exact ⟨⟨ha, hsn, by
        rw [List.mem_append]
        rintro (h | h)
        · exact hl h
        · simp at h; exact hk h.symm, rfl⟩, rfl⟩
    split
    · exact ⟨⟨ha, hsn, by simp; exact fun h => hk h.symm, rfl⟩, rfl⟩
    · exact ⟨⟨ha, hsn, hl, hr⟩, by simp [answersTo, hk]⟩
  | pushPull e p ok => exact absurd rfl (hp e p ok)
  | userMessage e ok =>
    refine ⟨⟨ha, fun h => hsn (settle_callers _ _ _ _ (.inl h)), hl, hr⟩, ?_⟩
    exact answersTo_done _ _ _ fun x hx h => hsn (settle_callers _ _ _ _ (.inr ⟨x, hx, h⟩))
  | left =>
    refine ⟨⟨ha, hsn, by simp [Driver.step], hr⟩, answersTo_none ?_⟩
    simpa [Driver.step] using hl
  | stop => exact absurd rfl hs

theorem sendHeld_other (b : Batch Nat) (d : Driver A) (op : Op A) (h : SendHeld b d)
    (hc : b.caller ∉ callers [op]) (he : ∀ e ∈ sendStarted [op], e ∉ b.eids) (hs : op ≠ .stop)
    (hp : ∀ e ok, op ≠ .userMessage e ok) :
    SendHeld b (d.step op).1 ∧ answersTo b.caller (d.step op).2 = [] := by
  obtain ⟨ha, hsn, hl, hr⟩ := h
  cases op with
  | send k r run es =>
    have hk : k ≠ b.caller := by rintro rfl; simp [callers] at hc
    simp only [sendStarted, List.map_cons, List.map_nil, List.flatten_cons, List.flatten_nil, List.append_nil] at he
    simp only [Driver.step, hr, Bool.false_eq_true, if_false]
    split
    · exact ⟨⟨ha, hsn, hl, hr⟩, by simp [answersTo, hk]⟩
    split
    · exact ⟨⟨ha, hsn, hl, hr⟩, by simp [answersTo, hk]⟩
    split
    · exact ⟨⟨ha, hsn, hl, hr⟩, by simp [answersTo, hk]⟩
    split
    · exact ⟨⟨ha, hsn, hl, hr⟩, by simp [answersTo, hk]⟩
    · exact ⟨⟨ha.push _ hk he, hsn, hl, rfl⟩, rfl⟩
  | join k r run es =>
    have hk : k ≠ b.caller := by rintro rfl; simp [callers] at hc
    simp only [Driver.step, hr, Bool.false_eq_true, if_false]
    split
    · exact ⟨⟨ha, hsn, hl, hr⟩, by simp [answersTo, hk]⟩
    split
    · exact ⟨⟨ha, hsn, hl, hr⟩, by simp [answersTo, hk]⟩
    split
    · exact ⟨⟨ha, hsn, hl, hr⟩, by simp [answersTo, hk]⟩
    · exact ⟨⟨ha, by
        rw [List.map_append, List.mem_append]
        rintro (h | h)
        · exact hsn h
        · simp at h; exact hk h.symm, hl, rfl⟩, rfl⟩
  | leave k run ok =>
    have hk : k ≠ b.caller := by rintro rfl; simp [callers] at hc
    simp only [Driver.step, hr, Bool.false_eq_true, if_false]
    split
    · exact ⟨⟨ha, hsn, by
        rw [List.mem_append]
        rintro (h | h)
        · exact hl h
        · simp at h; exact hk h.symm, rfl⟩, rfl⟩
    split
    · exact ⟨⟨ha, hsn, by simp; exact fun h => hk h.symm, rfl⟩, rfl⟩
    · exact ⟨⟨ha, hsn, hl, hr⟩, by simp [answersTo, hk]⟩
  | userMessage e ok => exact absurd rfl (hp e ok)
  | pushPull e p ok =>
    refine ⟨⟨ha, fun h => hsn (settle_callers _ _ _ _ (.inl h)), hl, hr⟩, ?_⟩
    exact answersTo_done _ _ _ fun x hx h => hsn (settle_callers _ _ _ _ (.inr ⟨x, hx, h⟩))
  | left =>
    refine ⟨⟨ha, hsn, by simp [Driver.step], hr⟩, answersTo_none ?_⟩
    simpa [Driver.step] using hl
  | stop => exact absurd rfl hs

/-- What a join hears that waits for the exchanges `R`. -/
def joinNews : List Nat → JoinNote A → List (Op A) → List (Answer A)
  | _, _, [] => []
  | R, n, op :: ops =>
    match op with
    | .pushPull e p ok =>
      let n' := if ok then { n with contacted := n.contacted ++ [p] } else n
      if e ∈ R then if R.filter (· ≠ e) = [] then [joinReply n'] else joinNews (R.filter (· ≠ e)) n' ops
      else joinNews R n ops
    | .stop => [.shutdown n.contacted]
    | _ => joinNews R n ops

/-- What a send hears. -/
def sendNews : List Nat → Nat → List (Op A) → List (Answer A)
  | _, _, [] => []
  | R, n, op :: ops =>
    match op with
    | .userMessage e ok =>
      let n' := if ok then n else n + 1
      if e ∈ R then if R.filter (· ≠ e) = [] then [sendReply n'] else sendNews (R.filter (· ≠ e)) n' ops
      else sendNews R n ops
    | .stop => [.shutdown []]
    | _ => sendNews R n ops

theorem stop_waiting (d : Driver A) : (d.step .stop).1.waiting = [] := rfl

theorem join_track (b : Batch (JoinNote A)) (d : Driver A) (ops : List (Op A)) (h : JoinHeld b d)
    (hc : b.caller ∉ callers ops) (he : ∀ e ∈ joinStarted ops, e ∉ b.eids) :
    answersTo b.caller (d.runs ops).2 = joinNews b.eids b.note ops := by
  induction ops generalizing d b with
  | nil => rfl
  | cons op ops ih =>
    rw [callers_cons, List.mem_append, not_or] at hc
    simp only [joinStarted_cons op ops, List.mem_append] at he
    simp only [Driver.runs, answersTo_append]
    have hother (hs : op ≠ .stop) (hp : ∀ e p ok, op ≠ .pushPull e p ok) :
        answersTo b.caller (d.step op).2 ++ answersTo b.caller ((d.step op).1.runs ops).2 = joinNews b.eids b.note ops := by
      obtain ⟨h1, h2⟩ := joinHeld_other b d op h hc.1 (fun e hm => he e (.inl hm)) hs hp
      rw [h2, ih b _ h1 hc.2 fun e hm => he e (.inr hm), List.nil_append]
    cases op with
    | join => exact hother (by simp) (by simp)
    | send => exact hother (by simp) (by simp)
    | leave => exact hother (by simp) (by simp)
    | userMessage => exact hother (by simp) (by simp)
    | left => exact hother (by simp) (by simp)
    | stop =>
      rw [runs_silent _ _ _ (by rw [stop_waiting]; simp) hc.2]
      show answersTo b.caller (d.joins.map (fun b => (b.caller, Answer.shutdown b.note.contacted)) ++
        d.leavers.map (fun c => (c, Answer.shutdown [])) ++
        d.sends.map (fun b => (b.caller, Answer.shutdown []))) ++ [] = [.shutdown b.note.contacted]
      rw [answersTo_append, answersTo_append, answersTo_alone b d.joins h.alone fun b => .shutdown b.note.contacted,
        answersTo_none (l := d.leavers.map _) (by simpa using h.leavers),
        answersTo_none (l := d.sends.map _) (by simpa [Function.comp_def] using h.sends)]
      rfl
    | pushPull e p ok =>
      simp only [joinNews]
      simp only [Driver.step]
      by_cases hm : e ∈ b.eids
      · have hh := settle_hit (fun n : JoinNote A => if ok then { n with contacted := n.contacted ++ [p] } else n) e b
          d.joins h.alone hm
        by_cases h0 : b.eids.filter (· ≠ e) = []
        · obtain ⟨⟨x, hx, hxc, hxn⟩, hno⟩ := hh.1 h0
          rw [if_pos hm, if_pos h0, hx]
          rw [runs_silent _ _ _ ?_ hc.2]
          · simp [answersTo, hxc, hxn]
          · simp only [Driver.waiting, List.mem_append, not_or]
            exact ⟨⟨hno, h.sends⟩, h.leavers⟩
        · obtain ⟨hx, hal⟩ := hh.2 h0
          rw [if_pos hm, if_neg h0, hx]
          have := ih { b with eids := b.eids.filter (· ≠ e),
                              note := if ok then { b.note with contacted := b.note.contacted ++ [p] } else b.note }
            { d with joins := (settle (fun n : JoinNote A => if ok then { n with contacted := n.contacted ++ [p] } else n)
                e d.joins).1 } ⟨hal, h.sends, h.leavers, h.running⟩ hc.2
            (fun e' hm' h' => he e' (.inr hm') (List.mem_filter.mp h').1)
          exact this
      · have hh := settle_miss (fun n : JoinNote A => if ok then { n with contacted := n.contacted ++ [p] } else n) e b
          d.joins h.alone hm
        rw [if_neg hm, answersTo_done _ _ _ hh.1, List.nil_append]
        exact ih b _ ⟨hh.2, h.sends, h.leavers, h.running⟩ hc.2 fun e hm => he e (.inr hm)

theorem send_track (b : Batch Nat) (d : Driver A) (ops : List (Op A)) (h : SendHeld b d)
    (hc : b.caller ∉ callers ops) (he : ∀ e ∈ sendStarted ops, e ∉ b.eids) :
    answersTo b.caller (d.runs ops).2 = sendNews b.eids b.note ops := by
  induction ops generalizing d b with
  | nil => rfl
  | cons op ops ih =>
    rw [callers_cons, List.mem_append, not_or] at hc
    simp only [sendStarted_cons op ops, List.mem_append] at he
    simp only [Driver.runs, answersTo_append]
    have hother (hs : op ≠ .stop) (hp : ∀ e ok, op ≠ .userMessage e ok) :
        answersTo b.caller (d.step op).2 ++ answersTo b.caller ((d.step op).1.runs ops).2 = sendNews b.eids b.note ops := by
      obtain ⟨h1, h2⟩ := sendHeld_other b d op h hc.1 (fun e hm => he e (.inl hm)) hs hp
      rw [h2, ih b _ h1 hc.2 fun e hm => he e (.inr hm), List.nil_append]
    cases op with
    | join => exact hother (by simp) (by simp)
    | send => exact hother (by simp) (by simp)
    | leave => exact hother (by simp) (by simp)
    | pushPull => exact hother (by simp) (by simp)
    | left => exact hother (by simp) (by simp)
    | stop =>
      rw [runs_silent _ _ _ (by rw [stop_waiting]; simp) hc.2]
      show answersTo b.caller (d.joins.map (fun b => (b.caller, Answer.shutdown b.note.contacted)) ++
        d.leavers.map (fun c => (c, Answer.shutdown [])) ++
        d.sends.map (fun b => (b.caller, Answer.shutdown []))) ++ [] = [.shutdown []]
      rw [answersTo_append, answersTo_append, answersTo_alone b d.sends h.alone fun _ => .shutdown [],
        answersTo_none (l := d.leavers.map _) (by simpa using h.leavers),
        answersTo_none (l := d.joins.map _) (by simpa [Function.comp_def] using h.joins)]
      rfl
    | userMessage e ok =>
      simp only [sendNews]
      simp only [Driver.step]
      by_cases hm : e ∈ b.eids
      · have hh := settle_hit (fun n : Nat => if ok then n else n + 1) e b d.sends h.alone hm
        by_cases h0 : b.eids.filter (· ≠ e) = []
        · obtain ⟨⟨x, hx, hxc, hxn⟩, hno⟩ := hh.1 h0
          rw [if_pos hm, if_pos h0, hx]
          rw [runs_silent _ _ _ ?_ hc.2]
          · simp [answersTo, hxc, hxn]
          · simp only [Driver.waiting, List.mem_append, not_or]
            exact ⟨⟨h.joins, hno⟩, h.leavers⟩
        · obtain ⟨hx, hal⟩ := hh.2 h0
          rw [if_pos hm, if_neg h0, hx]
          have := ih { b with eids := b.eids.filter (· ≠ e), note := if ok then b.note else b.note + 1 }
            { d with sends := (settle (fun n : Nat => if ok then n else n + 1) e d.sends).1 }
            ⟨hal, h.joins, h.leavers, h.running⟩ hc.2
            (fun e' hm' h' => he e' (.inr hm') (List.mem_filter.mp h').1)
          exact this
      · have hh := settle_miss (fun n : Nat => if ok then n else n + 1) e b d.sends h.alone hm
        rw [if_neg hm, answersTo_done _ _ _ hh.1, List.nil_append]
        exact ih b _ ⟨hh.2, h.joins, h.leavers, h.running⟩ hc.2 fun e hm => he e (.inr hm)

theorem syncsDone_cons (op : Op A) (ops : List (Op A)) : syncsDone (op :: ops) = syncsDone [op] ++ syncsDone ops := by
  show List.filterMap _ (op :: ops) = List.filterMap _ [op] ++ List.filterMap _ ops
  rw [← List.filterMap_append]; rfl

theorem sendsDone_cons (op : Op A) (ops : List (Op A)) : sendsDone (op :: ops) = sendsDone [op] ++ sendsDone ops := by
  show List.filterMap _ (op :: ops) = List.filterMap _ [op] ++ List.filterMap _ ops
  rw [← List.filterMap_append]; rfl

theorem reached_cons (R : List Nat) (op : Op A) (ops : List (Op A)) :
    reached R (op :: ops) = reached R [op] ++ reached R ops := by
  show List.filterMap _ (op :: ops) = List.filterMap _ [op] ++ List.filterMap _ ops
  rw [← List.filterMap_append]; rfl

/-- Only the exchanges that finish matter to `reached`. -/
theorem reached_congr (R R' : List Nat) (ops : List (Op A)) (h : ∀ e ∈ syncsDone ops, e ∈ R ↔ e ∈ R') :
    reached R ops = reached R' ops := by
  induction ops with
  | nil => rfl
  | cons op ops ih =>
    rw [syncsDone_cons] at h
    rw [reached_cons, reached_cons R', ih fun e he => h e (List.mem_append_right _ he)]
    congr 1
    cases op with
    | pushPull e p ok =>
      have := h e (by simp [syncsDone])
      by_cases hR : e ∈ R
      · have hR' := this.mp hR
        cases ok <;> simp [reached, hR, hR']
      · have hR' : e ∉ R' := fun h => hR (this.mpr h)
        cases ok <;> simp [reached, hR, hR']
    | _ => rfl

/-- How many of the given exchanges fail in a history. -/
def failures (R : List Nat) (ops : List (Op A)) : Nat :=
  (ops.filter fun | .userMessage e false => decide (e ∈ R) | _ => false).length

theorem failures_cons (R : List Nat) (op : Op A) (ops : List (Op A)) :
    failures R (op :: ops) = failures R [op] + failures R ops := by
  have : op :: ops = [op] ++ ops := rfl
  rw [this]
  simp only [failures, List.filter_append, List.length_append]

theorem failures_congr (R R' : List Nat) (ops : List (Op A)) (h : ∀ e ∈ sendsDone ops, e ∈ R ↔ e ∈ R') :
    failures R ops = failures R' ops := by
  induction ops with
  | nil => rfl
  | cons op ops ih =>
    rw [sendsDone_cons] at h
    rw [failures_cons, failures_cons R', ih fun e he => h e (List.mem_append_right _ he)]
    congr 1
    cases op with
    | userMessage e ok =>
      have := h e (by simp [sendsDone])
      by_cases hR : e ∈ R
      · have hR' := this.mp hR
        cases ok <;> simp [failures, hR, hR']
      · have hR' : e ∉ R' := fun h => hR (this.mpr h)
        cases ok <;> simp [failures, hR, hR']
    | _ => rfl

theorem filter_filter_done (R D : List Nat) (e : Nat) :
    (R.filter (· ≠ e)).filter (· ∉ D) = R.filter (· ∉ e :: D) := by
  rw [List.filter_filter]
  apply List.filter_congr
  intro x _
  by_cases h : x = e <;> simp [h]

theorem all_done_iff (R D : List Nat) (e : Nat) :
    (∀ x ∈ R.filter (· ≠ e), x ∈ D) ↔ ∀ x ∈ R, x ∈ e :: D := by
  constructor
  · intro h x hx
    by_cases hxe : x = e
    · simp [hxe]
    · exact List.mem_cons_of_mem _ (h x (List.mem_filter.mpr ⟨hx, by simpa using hxe⟩))
  · intro h x hx
    obtain ⟨hx, hxe⟩ := List.mem_filter.mp hx
    rcases List.mem_cons.mp (h x hx) with rfl | h
    · simp at hxe
    · exact h

theorem joinNews_append (R : List Nat) (n : JoinNote A) (a rest : List (Op A)) (hs : Op.stop ∉ a)
    (hn : (syncsDone a).Nodup) (h0 : R ≠ []) :
    joinNews R n (a ++ rest) =
      if ∀ e ∈ R, e ∈ syncsDone a then [joinReply { n with contacted := n.contacted ++ reached R a }]
      else joinNews (R.filter (· ∉ syncsDone a)) { n with contacted := n.contacted ++ reached R a } rest := by
  induction a generalizing R n with
  | nil =>
    have : ¬ ∀ e ∈ R, e ∈ syncsDone ([] : List (Op A)) := by
      obtain ⟨x, xs, rfl⟩ := List.exists_cons_of_ne_nil h0
      intro h
      exact absurd (h x List.mem_cons_self) (by simp [syncsDone])
    have hf : R.filter (· ∉ syncsDone ([] : List (Op A))) = R := List.filter_eq_self.mpr fun x _ => by simp [syncsDone]
    rw [if_neg this, hf]
    simp [reached]
  | cons op a ih =>
    simp only [List.mem_cons, not_or] at hs
    rw [syncsDone_cons] at hn ⊢
    rw [reached_cons]
    cases op with
    | stop => exact absurd rfl hs.1
    | pushPull e p ok =>
      have hd : syncsDone [Op.pushPull e p ok] = [e] := rfl
      rw [hd] at hn ⊢
      simp only [List.singleton_append] at hn ⊢
      obtain ⟨hne, hn⟩ := List.nodup_cons.mp hn
      have hr : reached (R.filter (· ≠ e)) a = reached R a := reached_congr _ _ _ fun x hx => by
        have : x ≠ e := by rintro rfl; exact hne hx
        simp [this]
      simp only [List.cons_append, joinNews]
      by_cases hm : e ∈ R
      · have h1 : (if ok then { n with contacted := n.contacted ++ [p] } else n : JoinNote A) =
            { n with contacted := n.contacted ++ reached R [Op.pushPull e p ok] } := by
          cases ok <;> simp [reached, hm]
        rw [if_pos hm, h1]
        by_cases hf : R.filter (· ≠ e) = []
        · rw [if_pos hf, if_pos]
          · rw [hf] at hr
            have : reached R a = [] := by
              rw [← hr]
              simp only [reached, List.filterMap_eq_nil_iff]
              intro x _
              split <;> simp
            rw [this, List.append_nil]
          · rw [← all_done_iff, hf]; simp
        · rw [if_neg hf, ih _ _ hs.2 hn hf, hr, filter_filter_done]
          simp only [all_done_iff, List.append_assoc]
      · have h1 : reached R [Op.pushPull e p ok] = [] := by cases ok <;> simp [reached, hm]
        have h2 : R.filter (· ≠ e) = R := List.filter_eq_self.mpr fun x hx => by
          simp; rintro rfl; exact hm hx
        rw [if_neg hm, ih _ _ hs.2 hn h0, h1, List.nil_append]
        have h3 := all_done_iff R (syncsDone a) e
        have h4 := filter_filter_done R (syncsDone a) e
        rw [h2] at h3 h4
        simp only [h3, h4]
    | join => exact ih R n hs.2 hn h0
    | send => exact ih R n hs.2 hn h0
    | leave => exact ih R n hs.2 hn h0
    | userMessage => exact ih R n hs.2 hn h0
    | left => exact ih R n hs.2 hn h0

theorem sendNews_append (R : List Nat) (n : Nat) (a rest : List (Op A)) (hs : Op.stop ∉ a)
    (hn : (sendsDone a).Nodup) (h0 : R ≠ []) :
    sendNews R n (a ++ rest) =
      if ∀ e ∈ R, e ∈ sendsDone a then [sendReply (n + failures R a)]
      else sendNews (R.filter (· ∉ sendsDone a)) (n + failures R a) rest := by
  induction a generalizing R n with
  | nil =>
    have : ¬ ∀ e ∈ R, e ∈ sendsDone ([] : List (Op A)) := by
      obtain ⟨x, xs, rfl⟩ := List.exists_cons_of_ne_nil h0
      intro h
      exact absurd (h x List.mem_cons_self) (by simp [sendsDone])
    have hf : R.filter (· ∉ sendsDone ([] : List (Op A))) = R := List.filter_eq_self.mpr fun x _ => by simp [sendsDone]
    rw [if_neg this, hf]
    simp [failures]
  | cons op a ih =>
    simp only [List.mem_cons, not_or] at hs
    rw [sendsDone_cons] at hn ⊢
    rw [failures_cons]
    cases op with
    | stop => exact absurd rfl hs.1
    | userMessage e ok =>
      have hd : sendsDone [(Op.userMessage e ok : Op A)] = [e] := rfl
      rw [hd] at hn ⊢
      simp only [List.singleton_append] at hn ⊢
      obtain ⟨hne, hn⟩ := List.nodup_cons.mp hn
      have hr : failures (R.filter (· ≠ e)) a = failures R a := failures_congr _ _ _ fun x hx => by
        have : x ≠ e := by rintro rfl; exact hne hx
        simp [this]
      simp only [List.cons_append, sendNews]
      by_cases hm : e ∈ R
      · have h1 : (if ok then n else n + 1) = n + failures R [(Op.userMessage e ok : Op A)] := by
          cases ok <;> simp [failures, hm]
        rw [if_pos hm, h1]
        by_cases hf : R.filter (· ≠ e) = []
        · rw [if_pos hf, if_pos]
          · rw [hf] at hr
            have : failures R a = 0 := by
              rw [← hr]
              simp only [failures, List.length_eq_zero_iff, List.filter_eq_nil_iff]
              intro x _
              split <;> simp
            rw [this, Nat.add_zero]
          · rw [← all_done_iff, hf]; simp
        · rw [if_neg hf, ih _ _ hs.2 hn hf, hr, filter_filter_done]
          simp only [all_done_iff, Nat.add_assoc]
      · have h1 : failures R [(Op.userMessage e ok : Op A)] = 0 := by cases ok <;> simp [failures, hm]
        have h2 : R.filter (· ≠ e) = R := List.filter_eq_self.mpr fun x hx => by
          simp; rintro rfl; exact hm hx
        rw [if_neg hm, ih _ _ hs.2 hn h0, h1, Nat.zero_add]
        have h3 := all_done_iff R (sendsDone a) e
        have h4 := filter_filter_done R (sendsDone a) e
        rw [h2] at h3 h4
        simp only [h3, h4]
    | join => simpa [failures, sendsDone, sendNews] using ih R n hs.2 hn h0
    | send => simpa [failures, sendsDone, sendNews] using ih R n hs.2 hn h0
    | leave => simpa [failures, sendsDone, sendNews] using ih R n hs.2 hn h0
    | pushPull => simpa [failures, sendsDone, sendNews] using ih R n hs.2 hn h0
    | left => simpa [failures, sendsDone, sendNews] using ih R n hs.2 hn h0

theorem failures_zero (R : List Nat) (ops : List (Op A)) :
    failures R ops = 0 ↔ ∀ e ∈ R, Op.userMessage e false ∉ ops := by
  simp only [failures, List.length_eq_zero_iff, List.filter_eq_nil_iff]
  constructor
  · intro h e he hm
    have := h _ hm
    simp [he] at this
  · intro h x hx
    split
    · rename_i e
      simp only [decide_eq_true_eq]
      exact fun he => h e he hx
    · simp

/-- The exchanges held are among those started, and the driver runs until it is stopped. -/
theorem runs_held (d : Driver A) (ops : List (Op A)) (hs : Op.stop ∉ ops) :
    (d.runs ops).1.stopped = d.stopped ∧
    (∀ b ∈ (d.runs ops).1.joins, ∀ e ∈ b.eids, (∃ x ∈ d.joins, e ∈ x.eids) ∨ e ∈ joinStarted ops) ∧
    ∀ b ∈ (d.runs ops).1.sends, ∀ e ∈ b.eids, (∃ x ∈ d.sends, e ∈ x.eids) ∨ e ∈ sendStarted ops := by
  induction ops generalizing d with
  | nil => exact ⟨rfl, fun b hb e he => .inl ⟨b, hb, he⟩, fun b hb e he => .inl ⟨b, hb, he⟩⟩
  | cons op ops ih =>
    simp only [List.mem_cons, not_or] at hs
    obtain ⟨i1, i2, i3⟩ := ih (d.step op).1 hs.2
    have key : (d.step op).1.stopped = d.stopped ∧
        (∀ b ∈ (d.step op).1.joins, ∀ e ∈ b.eids, (∃ x ∈ d.joins, e ∈ x.eids) ∨ e ∈ joinStarted [op]) ∧
        ∀ b ∈ (d.step op).1.sends, ∀ e ∈ b.eids, (∃ x ∈ d.sends, e ∈ x.eids) ∨ e ∈ sendStarted [op] := by
      have triv : d.stopped = d.stopped ∧
          (∀ b ∈ d.joins, ∀ e ∈ b.eids, (∃ x ∈ d.joins, e ∈ x.eids) ∨ e ∈ joinStarted [op]) ∧
          ∀ b ∈ d.sends, ∀ e ∈ b.eids, (∃ x ∈ d.sends, e ∈ x.eids) ∨ e ∈ sendStarted [op] :=
        ⟨rfl, fun b hb e he => .inl ⟨b, hb, he⟩, fun b hb e he => .inl ⟨b, hb, he⟩⟩
      cases op with
      | stop => exact absurd rfl hs.1
      | join k r run es =>
        simp only [Driver.step]
        split
        · exact triv
        split
        · exact triv
        split
        · exact triv
        split
        · exact triv
        · refine ⟨rfl, fun b hb e he => ?_, triv.2.2⟩
          rcases List.mem_append.mp hb with hb | hb
          · exact .inl ⟨b, hb, he⟩
          · simp only [List.mem_singleton] at hb
            subst hb
            exact .inr (by simpa [joinStarted] using he)
      | send k r run es =>
        simp only [Driver.step]
        split
        · exact triv
        split
        · exact triv
        split
        · exact triv
        split
        · exact triv
        split
        · exact triv
        · refine ⟨rfl, triv.2.1, fun b hb e he => ?_⟩
          rcases List.mem_append.mp hb with hb | hb
          · exact .inl ⟨b, hb, he⟩
          · simp only [List.mem_singleton] at hb
            subst hb
            exact .inr (by simpa [sendStarted] using he)
      | leave k run ok =>
        simp only [Driver.step]
        split
        · exact triv
        split
        · exact triv
        split
        · exact triv
        · exact triv
      | pushPull e p ok =>
        refine ⟨rfl, fun b hb e' he => ?_, triv.2.2⟩
        obtain ⟨x, hx, _, hsub⟩ := (settle_from _ _ _).1 b hb
        exact .inl ⟨x, hx, hsub e' he⟩
      | userMessage e ok =>
        refine ⟨rfl, triv.2.1, fun b hb e' he => ?_⟩
        obtain ⟨x, hx, _, hsub⟩ := (settle_from _ _ _).1 b hb
        exact .inl ⟨x, hx, hsub e' he⟩
      | left => exact triv
    refine ⟨i1.trans key.1, fun b hb e he => ?_, fun b hb e he => ?_⟩
    · rw [joinStarted_cons, List.mem_append]
      rcases i2 b hb e he with ⟨x, hx, hm⟩ | h
      · rcases key.2.1 x hx e hm with h | h
        · exact .inl h
        · exact .inr (.inl h)
      · exact .inr (.inr h)
    · rw [sendStarted_cons, List.mem_append]
      rcases i3 b hb e he with ⟨x, hx, hm⟩ | h
      · rcases key.2.2 x hx e hm with h | h
        · exact .inl h
        · exact .inr (.inl h)
      · exact .inr (.inr h)

theorem leaveHeld_other (c : Nat) (d : Driver A) (op : Op A) (h : LeaveHeld c d) (hc : c ∉ callers [op])
    (hs : op ≠ .stop) (hl : op ≠ .left) : LeaveHeld c (d.step op).1 ∧ answersTo c (d.step op).2 = [] := by
  obtain ⟨ho, hj, hsn, hr⟩ := h
  have hne : d.leavers ≠ [] := by rintro h0; simp [h0] at ho
  cases op with
  | join k r run es =>
    have hk : k ≠ c := by rintro rfl; simp [callers] at hc
    simp only [Driver.step, hr, Bool.false_eq_true, if_false]
    split
    · exact ⟨⟨ho, hj, hsn, hr⟩, by simp [answersTo, hk]⟩
    split
    · exact ⟨⟨ho, hj, hsn, hr⟩, by simp [answersTo, hk]⟩
    split
    · exact ⟨⟨ho, hj, hsn, hr⟩, by simp [answersTo, hk]⟩
    · exact ⟨⟨ho, by
        rw [List.map_append, List.mem_append]
        rintro (h | h)
        · exact hj h
        · simp at h; exact hk h.symm, hsn, rfl⟩, rfl⟩
  | send k r run es =>
    have hk : k ≠ c := by rintro rfl; simp [callers] at hc
    simp only [Driver.step, hr, Bool.false_eq_true, if_false]
    split
    · exact ⟨⟨ho, hj, hsn, hr⟩, by simp [answersTo, hk]⟩
    split
    · exact ⟨⟨ho, hj, hsn, hr⟩, by simp [answersTo, hk]⟩
    split
    · exact ⟨⟨ho, hj, hsn, hr⟩, by simp [answersTo, hk]⟩
    split
    · exact ⟨⟨ho, hj, hsn, hr⟩, by simp [answersTo, hk]⟩
    · exact ⟨⟨ho, hj, by
        rw [List.map_append, List.mem_append]
        rintro (h | h)
        · exact hsn h
        · simp at h; exact hk h.symm, rfl⟩, rfl⟩
  | leave k run ok =>
    have hk : k ≠ c := by rintro rfl; simp [callers] at hc
    simp only [Driver.step, hr, Bool.false_eq_true, if_false, if_pos hne]
    exact ⟨⟨by simp [List.count_append, ho, List.count_singleton, hk], hj, hsn, rfl⟩, rfl⟩
  | pushPull e p ok =>
    refine ⟨⟨ho, fun h => hj (settle_callers _ _ _ _ (.inl h)), hsn, hr⟩, ?_⟩
    exact answersTo_done _ _ _ fun x hx h => hj (settle_callers _ _ _ _ (.inr ⟨x, hx, h⟩))
  | userMessage e ok =>
    refine ⟨⟨ho, hj, fun h => hsn (settle_callers _ _ _ _ (.inl h)), hr⟩, ?_⟩
    exact answersTo_done _ _ _ fun x hx h => hsn (settle_callers _ _ _ _ (.inr ⟨x, hx, h⟩))
  | left => exact absurd rfl hl
  | stop => exact absurd rfl hs

theorem leaveHeld_runs (c : Nat) (d : Driver A) (ops : List (Op A)) (h : LeaveHeld c d) (hc : c ∉ callers ops)
    (hs : Op.stop ∉ ops) (hl : Op.left ∉ ops) : LeaveHeld c (d.runs ops).1 ∧ answersTo c (d.runs ops).2 = [] := by
  induction ops generalizing d with
  | nil => exact ⟨h, rfl⟩
  | cons op ops ih =>
    rw [callers_cons, List.mem_append, not_or] at hc
    simp only [List.mem_cons, not_or] at hs hl
    obtain ⟨h1, h2⟩ := leaveHeld_other c d op h hc.1 (Ne.symm hs.1) (Ne.symm hl.1)
    obtain ⟨h3, h4⟩ := ih _ h1 hc.2 hs.2 hl.2
    exact ⟨h3, by simp only [Driver.runs, answersTo_append, h2, h4, List.append_nil]⟩

theorem answersTo_count (c : Nat) (l : List Nat) (x : Answer A) (h : l.count c = 1) :
    answersTo c (l.map fun k => (k, x)) = [x] := by
  have : ∀ l : List Nat, answersTo c (l.map fun k => (k, x)) = List.replicate (l.count c) x := by
    intro l
    induction l with
    | nil => rfl
    | cons k l ih =>
      simp only [answersTo, List.map_cons, List.filterMap_cons] at ih ⊢
      by_cases hk : k = c
      · subst hk; simp [ih, List.replicate_succ]
      · simp [hk, ih]
  rw [this, h]; rfl

/-- Nobody who did not call is answered by or waits at a new driver. -/
theorem fresh_silent (pre : List (Op A)) (c : Nat) (hc : c ∉ callers pre) :
    c ∉ (({} : Driver A).runs pre).1.waiting ∧ answersTo c (({} : Driver A).runs pre).2 = [] := by
  have hw : c ∉ ({} : Driver A).waiting := by simp [Driver.waiting]
  exact ⟨fun h => (runs_from _ pre c (.inl h)).elim hw hc, runs_silent _ pre c hw hc⟩

theorem runs_around (pre post : List (Op A)) (op : Op A) (c : Nat) (hc : c ∉ callers pre) :
    answersTo c (({} : Driver A).runs (pre ++ op :: post)).2 =
      answersTo c ((({} : Driver A).runs pre).1.step op).2 ++
        answersTo c (((({} : Driver A).runs pre).1.step op).1.runs post).2 := by
  rw [runs_append]
  simp only [Driver.runs, answersTo_append, (fresh_silent pre c hc).2, List.nil_append]

/-- A command answered at once is not answered again. -/
theorem answered_now (pre post : List (Op A)) (op : Op A) (c : Nat) (a : Answer A) (hc : c ∉ callers pre)
    (hc' : c ∉ callers post)
    (hstep : (({} : Driver A).runs pre).1.step op = ((({} : Driver A).runs pre).1, [(c, a)])) :
    answersTo c (({} : Driver A).runs (pre ++ op :: post)).2 = [a] := by
  rw [runs_around pre post op c hc, hstep, runs_silent _ post c (fresh_silent pre c hc).1 hc']
  simp [answersTo]

theorem join_answers (pre post : List (Op A)) (c requested : Nat) (eids : List Nat) (hpre : Op.stop ∉ pre)
    (hr : requested ≠ 0) (h0 : eids ≠ []) (hc : c ∉ callers pre) (hc' : c ∉ callers post)
    (he : ∀ e ∈ eids, e ∉ joinStarted pre) (he' : ∀ e ∈ eids, e ∉ joinStarted post) :
    answersTo c (({} : Driver A).runs (pre ++ .join c requested true eids :: post)).2 =
      joinNews eids ⟨[], requested⟩ post := by
  obtain ⟨h1, h2, _⟩ := runs_held ({} : Driver A) pre hpre
  have hw := (fresh_silent pre c hc).1
  rw [runs_around pre post _ c hc]
  generalize (({} : Driver A).runs pre).1 = d at h1 h2 hw ⊢
  simp only [Driver.waiting, List.mem_append, not_or] at hw
  have hstep : d.step (.join c requested true eids) =
      ({ d with joins := d.joins ++ [⟨eids, ⟨[], requested⟩, c⟩] }, []) := by
    simp [Driver.step, h1, hr, h0]
  rw [hstep]
  exact join_track ⟨eids, ⟨[], requested⟩, c⟩ _ post
    ⟨alone_new _ _ hw.1.1 fun b hb e hm hin => (h2 b hb e hm).elim (by simp) (he e hin), hw.1.2, hw.2, h1⟩ hc'
    fun e hm hin => he' e hin hm

theorem send_answers (pre post : List (Op A)) (c payloads : Nat) (eids : List Nat) (hpre : Op.stop ∉ pre)
    (hl : eids.length ≤ payloads) (h0 : eids ≠ []) (hc : c ∉ callers pre) (hc' : c ∉ callers post)
    (he : ∀ e ∈ eids, e ∉ sendStarted pre) (he' : ∀ e ∈ eids, e ∉ sendStarted post) :
    answersTo c (({} : Driver A).runs (pre ++ .send c payloads true eids :: post)).2 =
      sendNews eids (payloads - eids.length) post := by
  obtain ⟨h1, _, h2⟩ := runs_held ({} : Driver A) pre hpre
  have hw := (fresh_silent pre c hc).1
  rw [runs_around pre post _ c hc]
  generalize (({} : Driver A).runs pre).1 = d at h1 h2 hw ⊢
  simp only [Driver.waiting, List.mem_append, not_or] at hw
  have hp : payloads ≠ 0 := by
    have := List.length_pos_iff.mpr h0
    omega
  have hstep : d.step (.send c payloads true eids) =
      ({ d with sends := d.sends ++ [⟨eids, payloads - eids.length, c⟩] }, []) := by
    simp [Driver.step, h1, hp, h0, Nat.not_lt.mpr hl]
  rw [hstep]
  exact send_track ⟨eids, payloads - eids.length, c⟩ _ post
    ⟨alone_new _ _ hw.1.2 fun b hb e hm hin => (h2 b hb e hm).elim (by simp) (he e hin), hw.1.1, hw.2, h1⟩ hc'
    fun e hm hin => he' e hin hm

theorem leave_parks (pre : List (Op A)) (c : Nat) (running ok : Bool) (hpre : Op.stop ∉ pre) (hc : c ∉ callers pre)
    (h : (({} : Driver A).runs pre).1.leavers ≠ [] ∨ running = true ∧ ok = true) :
    LeaveHeld c ((({} : Driver A).runs pre).1.step (.leave c running ok)).1 ∧
      ((({} : Driver A).runs pre).1.step (.leave c running ok)).2 = [] := by
  obtain ⟨h1, _⟩ := runs_held ({} : Driver A) pre hpre
  have hw := (fresh_silent pre c hc).1
  generalize (({} : Driver A).runs pre).1 = d at h h1 hw ⊢
  simp only [Driver.waiting, List.mem_append, not_or] at hw
  have hcount : d.leavers.count c = 0 := List.count_eq_zero.mpr hw.2
  have h1' : d.stopped = false := h1
  by_cases hl : d.leavers = []
  · have hro : running = true ∧ ok = true := h.resolve_left fun h => h hl
    have hstep : d.step (.leave c running ok) = ({ d with leavers := [c] }, []) := by
      simp [Driver.step, h1', hl, hro.1, hro.2]
    rw [hstep]
    exact ⟨⟨by simp, hw.1.1, hw.1.2, h1⟩, rfl⟩
  · have hstep : d.step (.leave c running ok) = ({ d with leavers := d.leavers ++ [c] }, []) := by
      simp [Driver.step, h1', hl]
    rw [hstep]
    exact ⟨⟨by simp [List.count_append, hcount], hw.1.1, hw.1.2, h1⟩, rfl⟩

theorem leave_ends (c : Nat) (d : Driver A) (post : List (Op A)) (op : Op A) (h : LeaveHeld c d)
    (hop : op = .left ∨ op = .stop) (hc : c ∉ callers post) :
    answersTo c (d.runs (op :: post)).2 = [if op matches .left then .left else .shutdown []] := by
  obtain ⟨ho, hj, hs, hr⟩ := h
  simp only [Driver.runs, answersTo_append]
  rcases hop with rfl | rfl
  · rw [runs_silent _ post c _ hc]
    · show answersTo c (d.leavers.map fun c => (c, Answer.left)) ++ [] = _
      rw [answersTo_count c d.leavers .left ho]
      rfl
    · simp only [Driver.step, Driver.waiting, List.mem_append, not_or]
      exact ⟨⟨hj, hs⟩, by simp⟩
  · rw [runs_silent _ post c (by rw [stop_waiting]; simp) hc]
    show answersTo c (d.joins.map (fun b => (b.caller, Answer.shutdown b.note.contacted)) ++
        d.leavers.map (fun c => (c, Answer.shutdown [])) ++
        d.sends.map (fun b => (b.caller, Answer.shutdown []))) ++ [] = [.shutdown []]
    rw [answersTo_append, answersTo_append, answersTo_count c d.leavers (.shutdown []) ho,
      answersTo_none (l := d.joins.map _) (by simpa [Function.comp_def] using hj),
      answersTo_none (l := d.sends.map _) (by simpa [Function.comp_def] using hs)]
    rfl

/-- Nobody waits to leave who has not asked to. -/
theorem leavers_none (d : Driver A) (ops : List (Op A)) (h : d.leavers = [])
    (hl : ∀ k r o, Op.leave k r o ∉ ops) : (d.runs ops).1.leavers = [] := by
  induction ops generalizing d with
  | nil => exact h
  | cons op ops ih =>
    refine ih _ ?_ fun k r o hm => hl k r o (List.mem_cons_of_mem _ hm)
    cases op with
    | leave k r o => exact absurd List.mem_cons_self (hl k r o)
    | join k r run es => simp only [Driver.step]; (repeat' split) <;> exact h
    | send k r run es => simp only [Driver.step]; (repeat' split) <;> exact h
    | pushPull => exact h
    | userMessage => exact h
    | left => rfl
    | stop => rfl

theorem stays_stopped (d : Driver A) (ops : List (Op A)) (h : d.stopped = true) : (d.runs ops).1.stopped = true := by
  induction ops generalizing d with
  | nil => exact h
  | cons op ops ih =>
    refine ih _ ?_
    cases op with
    | leave k r o => simp only [Driver.step]; (repeat' split) <;> exact h
    | join k r run es => simp only [Driver.step]; (repeat' split) <;> exact h
    | send k r run es => simp only [Driver.step]; (repeat' split) <;> exact h
    | pushPull => exact h
    | userMessage => exact h
    | left => exact h
    | stop => rfl

end Verif.Pending
