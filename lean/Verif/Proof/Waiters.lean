import Verif.Spec.Waiters

/-! Lemmas on waiters and kept events. -/

namespace Verif.Embassy

variable {E : Type}

theorem set_perm {α : Type} (a : List α) (i : Nat) (h : i < a.length) (z : α) :
    (a[i] :: a.set i z).Perm (z :: a) := by
  induction a generalizing i with
  | nil => simp at h
  | cons b t ih =>
    cases i with
    | zero => exact List.Perm.swap _ _ _
    | succ i =>
      simp only [List.getElem_cons_succ, List.set_cons_succ]
      exact (List.Perm.swap _ _ _).trans (((ih i (by simpa using h)).cons b).trans (List.Perm.swap _ _ _))

theorem swapRemove_perm {α : Type} (l : List α) (i : Nat) (h : i < l.length) :
    (l[i] :: swapRemove l i).Perm l := by
  rcases List.eq_nil_or_concat l with rfl | ⟨a, z, rfl⟩
  · simp at h
  · simp only [List.concat_eq_append] at h ⊢
    simp only [List.length_append, List.length_singleton] at h
    unfold swapRemove
    rw [List.getLast?_append]
    simp only [List.getLast?_singleton, Option.or_some, Option.some_or]
    by_cases hi : i < a.length
    · rw [List.getElem_append_left hi, List.set_append_left _ _ hi, List.dropLast_concat]
      exact (set_perm a i hi z).trans (List.perm_append_singleton z a).symm
    · have : i = a.length := by omega
      subst this
      simp
      exact (List.perm_append_singleton z a).symm

/-- The search finds the one waiter with the id, and removes it. -/
theorem resolve_mem {l : List (Nat × Nat)} {id w : Nat} (hk : (l.map (·.1)).Nodup) (h : (id, w) ∈ l) :
    (resolve l id).2 = some w ∧ ((id, w) :: (resolve l id).1).Perm l := by
  unfold resolve
  cases hf : l.findIdx? fun p => p.1 == id with
  | none =>
    rw [List.findIdx?_eq_none_iff] at hf
    have := hf _ h
    simp at this
  | some i =>
    rw [List.findIdx?_eq_some_iff_getElem] at hf
    obtain ⟨hi, hp, -⟩ := hf
    have hx : l[i] = (id, w) := by
      have h1 : l[i].1 = id := by simpa using hp
      obtain ⟨j, hj, hj'⟩ := List.getElem_of_mem h
      have hpw := List.pairwise_iff_getElem.mp hk
      have hij : i = j := by
        rcases Nat.lt_trichotomy i j with hlt | heq | hlt
        · have := hpw i j (by simpa using hi) (by simpa using hj) hlt
          simp only [List.getElem_map, h1, hj', ne_eq, not_true_eq_false] at this
        · exact heq
        · have := hpw j i (by simpa using hj) (by simpa using hi) hlt
          simp only [List.getElem_map, h1, hj', ne_eq, not_true_eq_false] at this
      subst hij
      exact hj'
    refine ⟨by simp [List.getElem?_eq_getElem hi, hx], ?_⟩
    have := swapRemove_perm l i hi
    rwa [hx] at this

theorem resolve_none {l : List (Nat × Nat)} {id : Nat} (h : ∀ w, (id, w) ∉ l) : resolve l id = (l, none) := by
  unfold resolve
  cases hf : l.findIdx? fun p => p.1 == id with
  | none => rfl
  | some i =>
    rw [List.findIdx?_eq_some_iff_getElem] at hf
    obtain ⟨hi, hp, -⟩ := hf
    have : l[i] ∈ l := List.getElem_mem hi
    rw [show l[i] = (id, l[i].2) by simp at hp; simp [← hp]] at this
    exact absurd this (h _)

/-- A search by any id, as a case distinction. -/
theorem resolve_cases {l : List (Nat × Nat)} (hk : (l.map (·.1)).Nodup) (id : Nat) :
    (∃ w, (id, w) ∈ l ∧ (resolve l id).2 = some w ∧ ((id, w) :: (resolve l id).1).Perm l) ∨
    ((∀ w, (id, w) ∉ l) ∧ resolve l id = (l, none)) := by
  by_cases h : ∃ w, (id, w) ∈ l
  · obtain ⟨w, h⟩ := h
    exact .inl ⟨w, h, resolve_mem hk h⟩
  · simp only [not_exists] at h
    exact .inr ⟨h, resolve_none h⟩

/-- Whom an event speaks to: a ping or a send, its id and the answer. -/
def Told.target : Told → Option (Bool × Nat × Answer)
  | .pingCompleted id rtt => some (true, id, .rtt rtt)
  | .pingFailed id => some (true, id, .pingTimeout)
  | .sendDone (some sid) ok => some (false, sid, if ok then .sent else .sendFailed)
  | .sendDone none _ => none
  | .other => none

theorem tell_none (s : Shared E) {t : Told} (h : t.target = none) : s.tell t = (s, []) := by
  unfold Told.target at h
  split at h <;> simp_all [Shared.tell]

theorem tell_ping (s : Shared E) {t : Told} {id : Nat} {a : Answer} (h : t.target = some (true, id, a)) :
    s.tell t = ({ s with pings := (resolve s.pings id).1 },
      (resolve s.pings id).2.toList.map fun w => .answer w a) := by
  unfold Told.target at h
  split at h <;> simp only [Option.some.injEq, Prod.mk.injEq, reduceCtorEq, Bool.false_eq_true, false_and,
    true_and] at h
  all_goals
    obtain ⟨rfl, rfl⟩ := h
    simp only [Shared.tell]
    generalize resolve s.pings _ = r
    obtain ⟨l, _ | w⟩ := r <;> rfl

theorem tell_send (s : Shared E) {t : Told} {id : Nat} {a : Answer} (h : t.target = some (false, id, a)) :
    s.tell t = ({ s with sends := (resolve s.sends id).1 },
      (resolve s.sends id).2.toList.map fun w => .answer w a) := by
  unfold Told.target at h
  split at h <;> simp only [Option.some.injEq, Prod.mk.injEq, reduceCtorEq, Bool.true_eq_false, false_and,
    true_and] at h
  obtain ⟨rfl, rfl⟩ := h
  simp only [Shared.tell]
  generalize resolve s.sends _ = r
  obtain ⟨l, _ | w⟩ := r <;> rfl

/-- No id is registered twice, and no waiter, now or later. -/
structure Kept (s : Shared E) (ops : List (SOp E)) : Prop where
  pings : (s.pings.map (·.1)).Nodup
  sends : (s.sends.map (·.1)).Nodup
  waiters : (s.pings.map (·.2) ++ (s.sends.map (·.2) ++ waiters ops)).Nodup

/-- The same, and ids to come tell waiting calls apart. -/
structure Good (s : Shared E) (ops : List (SOp E)) : Prop extends Kept s ops where
  fresh : Fresh s ops

theorem Good.keysP {s : Shared E} {ops : List (SOp E)} (h : Good s ops) : (s.pings.map (·.1)).Nodup := h.pings

theorem Good.keysS {s : Shared E} {ops : List (SOp E)} (h : Good s ops) : (s.sends.map (·.1)).Nodup := h.sends

theorem nodup_less {f : Nat × Nat → Nat} {x : Nat × Nat} {l' l : List (Nat × Nat)} {r : List Nat}
    (hp : (x :: l').Perm l) (h : (l.map f ++ r).Nodup) : (l'.map f ++ r).Nodup := by
  have h1 : ((f x :: l'.map f) ++ r).Perm (l.map f ++ r) := by
    have := hp.map f
    simp only [List.map_cons] at this
    exact this.append_right r
  have := h1.nodup_iff.mpr h
  simp only [List.cons_append] at this
  exact (List.nodup_cons.mp this).2

theorem nodup_keys {f : Nat × Nat → Nat} {x : Nat × Nat} {l' l : List (Nat × Nat)}
    (hp : (x :: l').Perm l) (h : (l.map f).Nodup) : (l'.map f).Nodup := by
  have := nodup_less (r := []) hp (by rw [List.append_nil]; exact h)
  rwa [List.append_nil] at this

/-- A search leaves nothing registered twice. -/
theorem Kept.lessP {s : Shared E} {ops : List (SOp E)} (h : Kept s ops) (id : Nat) (es : List E) :
    Kept ⟨(resolve s.pings id).1, s.sends, es⟩ ops := by
  rcases resolve_cases h.pings id with ⟨w, -, -, hp⟩ | ⟨-, he⟩
  · exact ⟨nodup_keys hp h.pings, h.sends, nodup_less hp h.waiters⟩
  · rw [he]; exact ⟨h.pings, h.sends, h.waiters⟩

theorem Kept.lessS {s : Shared E} {ops : List (SOp E)} (h : Kept s ops) (id : Nat) (es : List E) :
    Kept ⟨s.pings, (resolve s.sends id).1, es⟩ ops := by
  rcases resolve_cases h.sends id with ⟨w, -, -, hp⟩ | ⟨-, he⟩
  · refine ⟨h.pings, nodup_keys hp h.sends, ?_⟩
    have hw := h.waiters
    have e1 : (s.pings.map (·.2) ++ (s.sends.map (·.2) ++ Embassy.waiters ops)).Perm
        (s.sends.map (·.2) ++ (s.pings.map (·.2) ++ Embassy.waiters ops)) := by
      rw [← List.append_assoc, ← List.append_assoc]
      exact List.perm_append_comm.append_right _
    have e2 : ((resolve s.sends id).1.map (·.2) ++ (s.pings.map (·.2) ++ Embassy.waiters ops)).Perm
        (s.pings.map (·.2) ++ ((resolve s.sends id).1.map (·.2) ++ Embassy.waiters ops)) := by
      rw [← List.append_assoc, ← List.append_assoc]
      exact List.perm_append_comm.append_right _
    exact e2.nodup_iff.mp (nodup_less hp (e1.nodup_iff.mp hw))
  · rw [he]; exact ⟨h.pings, h.sends, h.waiters⟩

theorem Kept.step {s : Shared E} {op : SOp E} {ops : List (SOp E)} (h : Kept s (op :: ops))
    (hf : Fresh s (op :: ops)) : Kept (s.step op).1 ops := by
  cases op with
  | ping id w =>
    refine ⟨?_, h.sends, ?_⟩
    · have := h.pings
      have hf := hf.1
      simp only [Shared.step, List.map_append, List.map_cons, List.map_nil]
      rw [List.perm_append_comm.nodup_iff]
      exact List.nodup_cons.mpr ⟨hf, this⟩
    · have hw := h.waiters
      simp only [Shared.step, List.map_append, List.map_cons, List.map_nil, List.append_assoc,
        List.cons_append, List.nil_append]
      have hw' : (s.pings.map (·.2) ++ (s.sends.map (·.2) ++ w :: Embassy.waiters ops)).Nodup := by
        simpa [Embassy.waiters] using hw
      refine (List.Perm.nodup_iff ?_).mp hw'
      exact List.perm_middle.append_left _
  | send id w =>
    refine ⟨h.pings, ?_, ?_⟩
    · have := h.sends
      have hf := hf.1
      simp only [Shared.step, List.map_append, List.map_cons, List.map_nil]
      rw [List.perm_append_comm.nodup_iff]
      exact List.nodup_cons.mpr ⟨hf, this⟩
    · have hw := h.waiters
      simpa [Shared.step, Embassy.waiters] using hw
  | event e t =>
    have h' : Kept s ops := ⟨h.pings, h.sends, by simpa [Embassy.waiters] using h.waiters⟩
    simp only [Shared.step, Shared.keep]
    cases ht : t.target with
    | none => rw [tell_none s ht]; exact ⟨h'.pings, h'.sends, h'.waiters⟩
    | some x =>
      obtain ⟨b, id, a⟩ := x
      cases b
      · rw [tell_send s ht]; exact h'.lessS id _
      · rw [tell_ping s ht]; exact h'.lessP id _
  | poll =>
    have h' : Kept s ops := ⟨h.pings, h.sends, by simpa [Embassy.waiters] using h.waiters⟩
    simp only [Shared.step]
    split
    · exact h'
    · exact ⟨h'.pings, h'.sends, h'.waiters⟩
  | stop =>
    have h3 := (List.nodup_append.mp (List.nodup_append.mp h.waiters).2.1).2.1
    exact ⟨by simp [Shared.step], by simp [Shared.step], by simpa [Shared.step, Embassy.waiters] using h3⟩

theorem Good.step {s : Shared E} {op : SOp E} {ops : List (SOp E)} (h : Good s (op :: ops)) :
    Good (s.step op).1 ops :=
  ⟨h.toKept.step h.fresh, h.fresh.2⟩

@[simp] theorem answersOf_append (w : Nat) (a b : List (SOut E)) :
    answersOf w (a ++ b) = answersOf w a ++ answersOf w b := by simp [answersOf]

theorem answersOf_same (w : Nat) (a : Answer) (l : List (Nat × Nat)) :
    answersOf w (l.map fun p => (SOut.answer p.2 a : SOut E)) = (l.filter fun p => p.2 == w).map fun _ => a := by
  induction l with
  | nil => rfl
  | cons p l ih =>
    simp only [answersOf, List.map_cons] at ih ⊢
    by_cases hp : p.2 = w
    · rw [List.filterMap_cons_some (b := a) (by simp [hp]), ih, List.filter_cons_of_pos (by simp [hp])]
      rfl
    · rw [List.filterMap_cons_none (by simp [hp]), ih, List.filter_cons_of_neg (by simp [hp])]

theorem answersOf_toList (w : Nat) (a : Answer) (o : Option Nat) :
    answersOf w (o.toList.map fun v => (SOut.answer v a : SOut E)) = if o = some w then [a] else [] := by
  cases o with
  | none => rfl
  | some v =>
    by_cases h : v = w
    · simp [answersOf, h]
    · simp [answersOf, h]

/-- A waiter is not registered, and will not be. -/
def Absent (w : Nat) (s : Shared E) (ops : List (SOp E)) : Prop :=
  w ∉ s.pings.map (·.2) ∧ w ∉ s.sends.map (·.2) ∧ w ∉ waiters ops

theorem Absent.step {w : Nat} {s : Shared E} {op : SOp E} {ops : List (SOp E)} (h : Absent w s (op :: ops))
    (hg : Good s (op :: ops)) : Absent w (s.step op).1 ops ∧ answersOf w (s.step op).2 = [] := by
  obtain ⟨h1, h2, h3⟩ := h
  cases op with
  | ping id v =>
    simp only [waiters, List.filterMap_cons, List.mem_cons, not_or] at h3
    exact ⟨⟨by simp [Shared.step] at h1 ⊢; exact ⟨h1, h3.1⟩, h2, h3.2⟩, rfl⟩
  | send id v =>
    simp only [waiters, List.filterMap_cons, List.mem_cons, not_or] at h3
    exact ⟨⟨h1, by simp [Shared.step] at h2 ⊢; exact ⟨h2, h3.1⟩, h3.2⟩, rfl⟩
  | event e t =>
    have h3' : w ∉ waiters ops := by simpa [waiters] using h3
    simp only [Shared.step, Shared.keep]
    cases ht : t.target with
    | none => rw [tell_none s ht]; exact ⟨⟨h1, h2, h3'⟩, rfl⟩
    | some x =>
      obtain ⟨b, id, a⟩ := x
      cases b
      · rw [tell_send s ht]
        simp only [answersOf_toList]
        rcases resolve_cases hg.keysS id with ⟨v, hm, hr, hp⟩ | ⟨-, he⟩
        · have hm' : v ∈ s.sends.map (·.2) := List.mem_map.mpr ⟨_, hm, rfl⟩
          rw [hr]
          refine ⟨⟨h1, fun hx => h2 ?_, h3'⟩, if_neg fun hx => ?_⟩
          · obtain ⟨y, hy, hy'⟩ := List.mem_map.mp hx
            exact List.mem_map.mpr ⟨y, hp.subset (List.mem_cons_of_mem _ hy), hy'⟩
          · simp only [Option.some.injEq] at hx
            subst hx
            exact h2 hm'
        · rw [he]; exact ⟨⟨h1, h2, h3'⟩, rfl⟩
      · rw [tell_ping s ht]
        simp only [answersOf_toList]
        rcases resolve_cases hg.keysP id with ⟨v, hm, hr, hp⟩ | ⟨-, he⟩
        · have hm' : v ∈ s.pings.map (·.2) := List.mem_map.mpr ⟨_, hm, rfl⟩
          rw [hr]
          refine ⟨⟨fun hx => h1 ?_, h2, h3'⟩, if_neg fun hx => ?_⟩
          · obtain ⟨y, hy, hy'⟩ := List.mem_map.mp hx
            exact List.mem_map.mpr ⟨y, hp.subset (List.mem_cons_of_mem _ hy), hy'⟩
          · simp only [Option.some.injEq] at hx
            subst hx
            exact h1 hm'
        · rw [he]; exact ⟨⟨h1, h2, h3'⟩, rfl⟩
  | poll =>
    have h3' : w ∉ waiters ops := by simpa [waiters] using h3
    simp only [Shared.step]
    split
    · exact ⟨⟨h1, h2, h3'⟩, rfl⟩
    · exact ⟨⟨h1, h2, h3'⟩, rfl⟩
  | stop =>
    have h3' : w ∉ waiters ops := by simpa [waiters] using h3
    refine ⟨⟨by simp [Shared.step], by simp [Shared.step], h3'⟩, ?_⟩
    have e1 : (s.pings.filter fun p => p.2 == w) = [] := by
      rw [List.filter_eq_nil_iff]
      intro p hp hw
      exact h1 (List.mem_map.mpr ⟨p, hp, by simpa using hw⟩)
    have e2 : (s.sends.filter fun p => p.2 == w) = [] := by
      rw [List.filter_eq_nil_iff]
      intro p hp hw
      exact h2 (List.mem_map.mpr ⟨p, hp, by simpa using hw⟩)
    simp only [Shared.step, answersOf_append, answersOf_same, e1, e2, List.map_nil, List.append_nil]

theorem Absent.runs {w : Nat} {s : Shared E} {ops : List (SOp E)} (h : Absent w s ops) (hg : Good s ops) :
    answersOf w (s.runs ops).2 = [] := by
  induction ops generalizing s with
  | nil => rfl
  | cons op ops ih =>
    obtain ⟨h1, h2⟩ := h.step hg
    simp only [Shared.runs, answersOf_append, h2, ih h1 hg.step, List.append_nil]

theorem filter_one {l : List (Nat × Nat)} {id w : Nat} (hm : (id, w) ∈ l) (hn : (l.map (·.2)).Nodup) :
    (l.filter fun p => p.2 == w) = [(id, w)] := by
  induction l with
  | nil => simp at hm
  | cons p l ih =>
    simp only [List.map_cons, List.nodup_cons] at hn
    rcases List.mem_cons.mp hm with rfl | hm
    · rw [List.filter_cons_of_pos (by simp)]
      congr 1
      rw [List.filter_eq_nil_iff]
      intro q hq hw
      exact hn.1 (List.mem_map.mpr ⟨q, hq, by simpa using hw⟩)
    · rw [List.filter_cons_of_neg, ih hm hn.2]
      intro hp
      have hp : p.2 = w := by simpa using hp
      exact hn.1 (List.mem_map.mpr ⟨_, hm, hp.symm⟩)

theorem filter_none {l : List (Nat × Nat)} {w : Nat} (hn : w ∉ l.map (·.2)) :
    (l.filter fun p => p.2 == w) = [] := by
  rw [List.filter_eq_nil_iff]
  intro q hq hw
  exact hn (List.mem_map.mpr ⟨q, hq, by simpa using hw⟩)

/-- A waiting ping is answered by the first news of it, once. -/
theorem pending_ping {s : Shared E} {ops : List (SOp E)} {id w : Nat} (hg : Good s ops)
    (hm : (id, w) ∈ s.pings) :
    answersOf w (s.runs ops).2 = (ops.findSome? (pingNews id)).toList := by
  induction ops generalizing s with
  | nil => rfl
  | cons op ops ih =>
    have hw := hg.waiters
    have hmw : w ∈ s.pings.map (·.2) := List.mem_map.mpr ⟨_, hm, rfl⟩
    have hns : w ∉ s.sends.map (·.2) := fun hx =>
      (List.nodup_append.mp hw).2.2 w hmw w (List.mem_append_left _ hx) rfl
    have hno : w ∉ waiters (op :: ops) := fun hx =>
      (List.nodup_append.mp hw).2.2 w hmw w (List.mem_append_right _ hx) rfl
    have hnp : (s.pings.map (·.2)).Nodup := (List.nodup_append.mp hw).1
    have hg' := hg.step
    simp only [Shared.runs, answersOf_append]
    cases op with
    | ping k v =>
      rw [ih hg' (List.mem_append_left _ hm)]
      rfl
    | send k v =>
      rw [ih hg' hm]
      rfl
    | poll =>
      have e : ((s.step .poll).1.pings = s.pings) ∧ answersOf w (s.step .poll).2 = [] := by
        simp only [Shared.step]
        split <;> exact ⟨rfl, rfl⟩
      rw [e.2, ih hg' (by rw [e.1]; exact hm)]
      rfl
    | stop =>
      have ha : Absent w (s.step .stop).1 ops :=
        ⟨by simp [Shared.step], by simp [Shared.step], by simpa [waiters] using hno⟩
      rw [ha.runs hg']
      simp only [Shared.step, answersOf_append, answersOf_same, filter_one hm hnp, filter_none hns]
      rfl
    | event e t =>
      have hno' : w ∉ waiters ops := by simpa [waiters] using hno
      cases ht : t.target with
      | none =>
        have e1 : (s.step (.event e t)).1.pings = s.pings := by
          simp [Shared.step, Shared.keep, tell_none s ht]
        have e2 : (s.step (.event e t)).2 = [] := by simp [Shared.step, tell_none s ht]
        rw [e2, ih hg' (by rw [e1]; exact hm)]
        have : pingNews id (.event e t) = none := by
          unfold Told.target at ht
          split at ht <;> simp_all [pingNews]
        simp [answersOf, this]
      | some x =>
        obtain ⟨b, k, a⟩ := x
        cases b
        · have e1 : (s.step (.event e t)).1.pings = s.pings := by
            simp [Shared.step, Shared.keep, tell_send s ht]
          have e2 : answersOf w (s.step (.event e t)).2 = [] := by
            simp only [Shared.step, tell_send s ht, answersOf_toList]
            rcases resolve_cases hg.keysS k with ⟨v, hv, hr, hp⟩ | ⟨-, he⟩
            · rw [hr]
              refine if_neg fun hx => ?_
              simp only [Option.some.injEq] at hx
              subst hx
              exact hns (List.mem_map.mpr ⟨_, hv, rfl⟩)
            · rw [he]; rfl
          rw [e2, ih hg' (by rw [e1]; exact hm)]
          have : pingNews id (.event e t) = none := by
            unfold Told.target at ht
            split at ht <;> simp_all [pingNews]
          simp [this]
        · have hnews : pingNews id (.event e t) = if k = id then some a else none := by
            unfold Told.target at ht
            split at ht <;> simp_all [pingNews]
          by_cases hk : k = id
          · subst hk
            obtain ⟨hr, hp⟩ := resolve_mem hg.keysP hm
            have e2 : answersOf w (s.step (.event e t)).2 = [a] := by
              simp only [Shared.step, tell_ping s ht, answersOf_toList, hr, if_true]
            have ha : Absent w (s.step (.event e t)).1 ops := by
              refine ⟨?_, ?_, hno'⟩
              · simp only [Shared.step, Shared.keep, tell_ping s ht]
                have := (hp.map (·.2)).nodup_iff.mpr hnp
                simp only [List.map_cons, List.nodup_cons] at this
                exact this.1
              · simpa [Shared.step, Shared.keep, tell_ping s ht] using hns
            rw [e2, ha.runs hg']
            simp [hnews]
          · have hm' : (id, w) ∈ (s.step (.event e t)).1.pings := by
              simp only [Shared.step, Shared.keep, tell_ping s ht]
              rcases resolve_cases hg.keysP k with ⟨v, hv, hr, hp⟩ | ⟨-, he⟩
              · rcases List.mem_cons.mp (hp.symm.subset hm) with hx | hx
                · simp only [Prod.mk.injEq] at hx
                  exact absurd hx.1.symm hk
                · exact hx
              · rw [he]; exact hm
            have e2 : answersOf w (s.step (.event e t)).2 = [] := by
              simp only [Shared.step, tell_ping s ht, answersOf_toList]
              rcases resolve_cases hg.keysP k with ⟨v, hv, hr, hp⟩ | ⟨-, he⟩
              · rw [hr]
                refine if_neg fun hx => ?_
                simp only [Option.some.injEq] at hx
                subst hx
                have h1 := filter_one hm hnp
                have h2 := filter_one hv hnp
                rw [h1] at h2
                simp only [List.cons.injEq, Prod.mk.injEq, and_true] at h2
                exact hk h2.symm
              · rw [he]; rfl
            rw [e2, ih hg' hm']
            simp [hnews, hk]

/-- A waiting send is answered by the first news of it, once. -/
theorem pending_send {s : Shared E} {ops : List (SOp E)} {id w : Nat} (hg : Good s ops)
    (hm : (id, w) ∈ s.sends) :
    answersOf w (s.runs ops).2 = (ops.findSome? (sendNews id)).toList := by
  induction ops generalizing s with
  | nil => rfl
  | cons op ops ih =>
    have hw := hg.waiters
    have hmw : w ∈ s.sends.map (·.2) := List.mem_map.mpr ⟨_, hm, rfl⟩
    have hns : w ∉ s.pings.map (·.2) := fun hx =>
      (List.nodup_append.mp hw).2.2 w hx w (List.mem_append_left _ hmw) rfl
    have hno : w ∉ waiters (op :: ops) := fun hx =>
      (List.nodup_append.mp (List.nodup_append.mp hw).2.1).2.2 w hmw w hx rfl
    have hnp : (s.sends.map (·.2)).Nodup := (List.nodup_append.mp (List.nodup_append.mp hw).2.1).1
    have hg' := hg.step
    simp only [Shared.runs, answersOf_append]
    cases op with
    | ping k v =>
      rw [ih hg' hm]
      rfl
    | send k v =>
      rw [ih hg' (List.mem_append_left _ hm)]
      rfl
    | poll =>
      have e : ((s.step .poll).1.sends = s.sends) ∧ answersOf w (s.step .poll).2 = [] := by
        simp only [Shared.step]
        split <;> exact ⟨rfl, rfl⟩
      rw [e.2, ih hg' (by rw [e.1]; exact hm)]
      rfl
    | stop =>
      have ha : Absent w (s.step .stop).1 ops :=
        ⟨by simp [Shared.step], by simp [Shared.step], by simpa [waiters] using hno⟩
      rw [ha.runs hg']
      simp only [Shared.step, answersOf_append, answersOf_same, filter_none hns, filter_one hm hnp]
      rfl
    | event e t =>
      have hno' : w ∉ waiters ops := by simpa [waiters] using hno
      cases ht : t.target with
      | none =>
        have e1 : (s.step (.event e t)).1.sends = s.sends := by
          simp [Shared.step, Shared.keep, tell_none s ht]
        have e2 : (s.step (.event e t)).2 = [] := by simp [Shared.step, tell_none s ht]
        rw [e2, ih hg' (by rw [e1]; exact hm)]
        have : sendNews id (.event e t) = none := by
          unfold Told.target at ht
          split at ht <;> simp_all [sendNews]
        simp [answersOf, this]
      | some x =>
        obtain ⟨b, k, a⟩ := x
        cases b
        rotate_left 1
        · have e1 : (s.step (.event e t)).1.sends = s.sends := by
            simp [Shared.step, Shared.keep, tell_ping s ht]
          have e2 : answersOf w (s.step (.event e t)).2 = [] := by
            simp only [Shared.step, tell_ping s ht, answersOf_toList]
            rcases resolve_cases hg.keysP k with ⟨v, hv, hr, hp⟩ | ⟨-, he⟩
            · rw [hr]
              refine if_neg fun hx => ?_
              simp only [Option.some.injEq] at hx
              subst hx
              exact hns (List.mem_map.mpr ⟨_, hv, rfl⟩)
            · rw [he]; rfl
          rw [e2, ih hg' (by rw [e1]; exact hm)]
          have : sendNews id (.event e t) = none := by
            unfold Told.target at ht
            split at ht <;> simp_all [sendNews]
          simp [this]
        · have hnews : sendNews id (.event e t) = if k = id then some a else none := by
            unfold Told.target at ht
            split at ht <;> simp_all [sendNews]
          by_cases hk : k = id
          · subst hk
            obtain ⟨hr, hp⟩ := resolve_mem hg.keysS hm
            have e2 : answersOf w (s.step (.event e t)).2 = [a] := by
              simp only [Shared.step, tell_send s ht, answersOf_toList, hr, if_true]
            have ha : Absent w (s.step (.event e t)).1 ops := by
              refine ⟨?_, ?_, hno'⟩
              rotate_left 1
              · simp only [Shared.step, Shared.keep, tell_send s ht]
                have := (hp.map (·.2)).nodup_iff.mpr hnp
                simp only [List.map_cons, List.nodup_cons] at this
                exact this.1
              · simpa [Shared.step, Shared.keep, tell_send s ht] using hns
            rw [e2, ha.runs hg']
            simp [hnews]
          · have hm' : (id, w) ∈ (s.step (.event e t)).1.sends := by
              simp only [Shared.step, Shared.keep, tell_send s ht]
              rcases resolve_cases hg.keysS k with ⟨v, hv, hr, hp⟩ | ⟨-, he⟩
              · rcases List.mem_cons.mp (hp.symm.subset hm) with hx | hx
                · simp only [Prod.mk.injEq] at hx
                  exact absurd hx.1.symm hk
                · exact hx
              · rw [he]; exact hm
            have e2 : answersOf w (s.step (.event e t)).2 = [] := by
              simp only [Shared.step, tell_send s ht, answersOf_toList]
              rcases resolve_cases hg.keysS k with ⟨v, hv, hr, hp⟩ | ⟨-, he⟩
              · rw [hr]
                refine if_neg fun hx => ?_
                simp only [Option.some.injEq] at hx
                subst hx
                have h1 := filter_one hm hnp
                have h2 := filter_one hv hnp
                rw [h1] at h2
                simp only [List.cons.injEq, Prod.mk.injEq, and_true] at h2
                exact hk h2.symm
              · rw [he]; rfl
            rw [e2, ih hg' hm']
            simp [hnews, hk]

theorem told_append (a b : List (SOp E)) : told (a ++ b) = told a ++ told b := by simp [told]

@[simp] theorem polled_append (a b : List (SOut E)) : polled (a ++ b) = polled a ++ polled b := by
  simp [polled]

theorem polled_answers (l : List (Nat × Nat)) (a : Answer) :
    polled (l.map fun p => (SOut.answer p.2 a : SOut E)) = [] := by
  simp [polled, List.filterMap_eq_nil_iff]

theorem polled_toList (o : Option Nat) (a : Answer) :
    polled (o.toList.map fun v => (SOut.answer v a : SOut E)) = [] := by
  cases o <;> rfl

theorem tell_events (s : Shared E) (t : Told) : (s.tell t).1.events = s.events ∧ polled (s.tell t).2 = [] := by
  cases ht : t.target with
  | none => rw [tell_none s ht]; exact ⟨rfl, rfl⟩
  | some x =>
    obtain ⟨b, id, a⟩ := x
    cases b
    · rw [tell_send s ht]; exact ⟨rfl, polled_toList _ _⟩
    · rw [tell_ping s ht]; exact ⟨rfl, polled_toList _ _⟩

/-- A step either keeps the account, or drops the oldest kept event because there is no room. -/
theorem step_kept (s : Shared E) (op : SOp E) :
    (polled (s.step op).2 ++ (s.step op).1.events = s.events ++ told [op]) ∨
    (appEventsCap ≤ s.events.length ∧ polled (s.step op).2 = [] ∧ (∃ e t, op = .event e t) ∧
      (s.step op).1.events = s.events.tail ++ told [op]) := by
  cases op with
  | ping id w => left; simp [Shared.step, polled, told]
  | send id w => left; simp [Shared.step, polled, told]
  | poll =>
    left
    simp only [Shared.step]
    split
    · next h => simp [polled, told]
    · next h => rw [h]; simp [polled, told]
  | stop =>
    left
    simp only [Shared.step, polled_append, polled_answers, List.append_nil, List.nil_append]
    simp [told]
  | event e t =>
    simp only [Shared.step, Shared.keep, (tell_events s t).1, (tell_events s t).2, List.nil_append]
    by_cases h : appEventsCap ≤ s.events.length
    · right
      exact ⟨h, trivial, ⟨e, t, rfl⟩, by rw [if_pos h]; rfl⟩
    · left
      rw [if_neg h]; rfl

theorem runs_kept_sublist (s : Shared E) (ops : List (SOp E)) :
    (polled (s.runs ops).2 ++ (s.runs ops).1.events).Sublist (s.events ++ told ops) := by
  induction ops generalizing s with
  | nil => simp [Shared.runs, polled, told]
  | cons op ops ih =>
    have e : told (op :: ops) = told [op] ++ told ops := told_append [op] ops
    have h := ih (s.step op).1
    simp only [Shared.runs, polled_append, List.append_assoc, e]
    rcases step_kept s op with h1 | ⟨-, h1, -, h2⟩
    · have := (List.Sublist.refl (polled (s.step op).2)).append h
      rw [← List.append_assoc (polled (s.step op).2) (s.step op).1.events, h1, List.append_assoc] at this
      exact this
    · rw [h1, List.nil_append]
      rw [h2, List.append_assoc] at h
      exact h.trans ((List.tail_sublist _).append (List.Sublist.refl _))

theorem runs_kept_suffix (s : Shared E) (ops : List (SOp E)) :
    (s.runs ops).1.events <:+ s.events ++ told ops := by
  induction ops generalizing s with
  | nil => simp [Shared.runs, told]
  | cons op ops ih =>
    have e : told (op :: ops) = told [op] ++ told ops := told_append [op] ops
    have h := ih (s.step op).1
    simp only [Shared.runs, e]
    refine h.trans ?_
    rw [← List.append_assoc]
    rcases step_kept s op with h1 | ⟨-, -, -, h2⟩
    · refine ⟨polled (s.step op).2, ?_⟩
      rw [← List.append_assoc, h1]
    · rw [h2]
      cases he : s.events with
      | nil => exact List.suffix_refl _
      | cons x xs => exact ⟨[x], by simp⟩

theorem step_len (s : Shared E) (op : SOp E) (h : s.events.length ≤ appEventsCap) :
    (s.step op).1.events.length ≤ appEventsCap := by
  cases op with
  | ping id w => exact h
  | send id w => exact h
  | stop => exact h
  | poll =>
    simp only [Shared.step]
    split
    · exact h
    · next he => rw [he] at h; simp only [List.length_cons] at h; simp only; omega
  | event e t =>
    simp only [Shared.step, Shared.keep, (tell_events s t).1, List.length_append, List.length_singleton]
    split
    · simp only [List.length_tail, appEventsCap] at *; omega
    · omega

theorem runs_len (s : Shared E) (ops : List (SOp E)) (h : s.events.length ≤ appEventsCap) :
    (s.runs ops).1.events.length ≤ appEventsCap := by
  induction ops generalizing s with
  | nil => exact h
  | cons op ops ih => exact ih _ (step_len s op h)

/-- With room at every moment nothing is dropped. -/
theorem runs_kept_all (s : Shared E) (ops : List (SOp E))
    (h : ∀ pre, pre <+: ops →
      s.events.length + (told pre).length ≤ (polled (s.runs pre).2).length + appEventsCap) :
    polled (s.runs ops).2 ++ (s.runs ops).1.events = s.events ++ told ops := by
  induction ops generalizing s with
  | nil => simp [Shared.runs, polled, told]
  | cons op ops ih =>
    have e : ∀ l, told (op :: l) = told [op] ++ told l := fun l => told_append [op] l
    have h0 := h [op] ⟨ops, rfl⟩
    rcases step_kept s op with h1 | ⟨h2, h3, ⟨x, t, rfl⟩, -⟩
    · have hl := congrArg List.length h1
      simp only [List.length_append] at hl
      have := ih (s.step op).1 fun pre hp => by
        have := h (op :: pre) (List.prefix_cons_inj op |>.mpr hp)
        rw [e] at this
        simp only [Shared.runs, polled_append, List.length_append] at this
        omega
      rw [e]
      simp only [Shared.runs, polled_append, List.append_assoc, this]
      rw [← List.append_assoc, h1, List.append_assoc]
    · simp only [Shared.runs, h3, List.append_nil, told, List.filterMap_cons, List.filterMap_nil,
        List.length_singleton] at h0
      simp only [polled, List.filterMap_nil, List.length_nil] at h0
      omega

/-- Events told and none polled: as many are kept as there is room for. -/
theorem runs_quiet_len (s : Shared E) (es : List E) (h : s.events.length ≤ appEventsCap) :
    (s.runs (es.map fun x => .event x .other)).1.events.length =
      min appEventsCap (s.events.length + es.length) := by
  induction es generalizing s with
  | nil => simp only [List.map_nil, Shared.runs, List.length_nil]; omega
  | cons e es ih =>
    simp only [List.map_cons, Shared.runs]
    rw [ih _ (step_len s _ h)]
    have hs : (s.step (.event e .other)).1.events =
        (if appEventsCap ≤ s.events.length then s.events.tail else s.events) ++ [e] := rfl
    rw [hs]
    split
    · simp only [List.length_append, List.length_cons, List.length_nil, List.length_tail, appEventsCap] at *
      omega
    · simp only [List.length_append, List.length_cons, List.length_nil]; omega

theorem runs_append (s : Shared E) (a b : List (SOp E)) :
    s.runs (a ++ b) = (((s.runs a).1.runs b).1, (s.runs a).2 ++ ((s.runs a).1.runs b).2) := by
  induction a generalizing s with
  | nil => rfl
  | cons op a ih => simp only [List.cons_append, Shared.runs, ih, List.append_assoc]

theorem Good.runs {s : Shared E} {a b : List (SOp E)} (h : Good s (a ++ b)) : Good (s.runs a).1 b := by
  induction a generalizing s with
  | nil => exact h
  | cons op a ih => exact ih h.step

theorem Distinct.good {ops : List (SOp E)} (h : Distinct ops) : Good (Shared.new E) ops :=
  ⟨⟨by simp [Shared.new], by simp [Shared.new], by simpa [Shared.new] using h.waiters⟩, h.fresh⟩

theorem waiters_append (a b : List (SOp E)) : waiters (a ++ b) = waiters a ++ waiters b := by simp [waiters]

theorem Fresh.left {s : Shared E} {a b : List (SOp E)} (h : Fresh s (a ++ b)) : Fresh s a := by
  induction a generalizing s with
  | nil => trivial
  | cons op a ih => exact ⟨h.1, ih h.2⟩

theorem Good.left {s : Shared E} {a b : List (SOp E)} (h : Good s (a ++ b)) : Good s a := by
  have k3 : (Embassy.waiters a).Sublist (Embassy.waiters (a ++ b)) :=
    (List.sublist_append_left a b).filterMap _
  exact ⟨⟨h.pings, h.sends,
    h.waiters.sublist ((List.Sublist.refl _).append ((List.Sublist.refl _).append k3))⟩, h.fresh.left⟩

theorem answered_ping {pre post : List (SOp E)} {id w : Nat} (h : Distinct (pre ++ .ping id w :: post)) :
    answersOf w ((Shared.new E).runs (pre ++ .ping id w :: post)).2 =
      (post.findSome? (pingNews id)).toList := by
  have hg := h.good
  have hw : w ∉ waiters pre := by
    intro hx
    have := h.waiters
    rw [waiters_append] at this
    exact (List.nodup_append.mp this).2.2 w hx w (by simp [waiters]) rfl
  have h1 : answersOf w ((Shared.new E).runs pre).2 = [] :=
    Absent.runs ⟨by simp [Shared.new], by simp [Shared.new], hw⟩ hg.left
  rw [runs_append]
  simp only [Shared.runs, answersOf_append, h1, List.nil_append]
  have hg2 := hg.runs.step
  rw [pending_ping (id := id) hg2 (by simp [Shared.step])]
  simp [Shared.step, answersOf]

theorem answered_send {pre post : List (SOp E)} {id w : Nat} (h : Distinct (pre ++ .send id w :: post)) :
    answersOf w ((Shared.new E).runs (pre ++ .send id w :: post)).2 =
      (post.findSome? (sendNews id)).toList := by
  have hg := h.good
  have hw : w ∉ waiters pre := by
    intro hx
    have := h.waiters
    rw [waiters_append] at this
    exact (List.nodup_append.mp this).2.2 w hx w (by simp [waiters]) rfl
  have h1 : answersOf w ((Shared.new E).runs pre).2 = [] :=
    Absent.runs ⟨by simp [Shared.new], by simp [Shared.new], hw⟩ hg.left
  rw [runs_append]
  simp only [Shared.runs, answersOf_append, h1, List.nil_append]
  have hg2 := hg.runs.step
  rw [pending_send (id := id) hg2 (by simp [Shared.step])]
  simp [Shared.step, answersOf]

end Verif.Embassy
