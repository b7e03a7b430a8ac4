import Verif.Proof.Members
/- C16: the member table behaves like a map from id to member, under every operation sequence. -/
namespace Verif.Props
open Members

variable {I M : Type} [DecidableEq I]

/-- One call on the member table. -/
inductive MemberOp (I M : Type) where
  | insert (m : M)
  | insertAt (m : M) (target : Nat)
  | remove (id : I)
  | update (id : I) (f : M → M)
  | shuffle (pick : Nat → Nat)

/-- The call on the model; `none` is a panic. The output is what the call returns. -/
def MemberOp.apply (idOf : M → I) (s : Members I M) : MemberOp I M → Option (Members I M × Option M)
  | .insert m => s.insert idOf m
  | .insertAt m t => (s.insertAt idOf m t).map (·, none)
  | .remove id => s.remove id
  | .update id f => some (s.update id f, none)
  | .shuffle pick => (s.shuffle idOf pick).map (·, none)

/-- What a caller must respect: `insert_at_random_at` asserts an absent id and an in-range target; an
in-place change keeps the id. -/
def MemberOp.Ok (idOf : M → I) (s : Members I M) : MemberOp I M → Prop
  | .insertAt m t => s.get (idOf m) = none ∧ t ≤ s.len
  | .update _ f => ∀ m, idOf (f m) = idOf m
  | _ => True

/-- Specification: a table is a partial map from id to member. -/
abbrev SpecTable (I M : Type) := I → Option M

def MemberOp.spec (idOf : M → I) (t : SpecTable I M) : MemberOp I M → SpecTable I M × Option M
  | .insert m => (fun i => if i = idOf m then some m else t i, t (idOf m))
  | .insertAt m _ => (fun i => if i = idOf m then some m else t i, none)
  | .remove id => (fun i => if i = id then none else t i, t id)
  | .update id f => (fun i => if i = id then (t id).map f else t i, none)
  | .shuffle _ => (t, none)

/-- The table `s` represents the map `t`: lookup agrees, and iteration visits every entry of the map
exactly once and nothing else. -/
structure Represents (idOf : M → I) (s : Members I M) (t : SpecTable I M) : Prop where
  get : ∀ id, s.get id = t id
  iter : ∀ m, m ∈ s.nodes ↔ t (idOf m) = some m
  once : (s.nodes.map idOf).Nodup
  contains : ∀ id, s.contains id = (t id).isSome
  keyed : ∀ id m, t id = some m → idOf m = id

theorem represents_of_inv {idOf : M → I} {s : Members I M} (h : Inv idOf s) :
    Represents idOf s s.get where
  get := fun _ => rfl
  iter := fun m => by rw [h.get_iff]; simp
  once := h.ids_nodup
  contains := fun id => by
    simp only [Members.contains, Map.contains, Members.get]
    cases hg : s.nodeMap.get? id with
    | none => rfl
    | some i => obtain ⟨m, hm, _⟩ := (h.idx id i).1 hg; simp [hm]
  keyed := fun id m hm => ((h.get_iff id m).1 hm).2

theorem get_ext {idOf : M → I} {s s' : Members I M} (h' : Inv idOf s')
    (t : SpecTable I M) (hk : ∀ id m, t id = some m → idOf m = id)
    (hm : ∀ m, m ∈ s'.nodes ↔ t (idOf m) = some m) : s'.get = t := by
  funext id
  apply Option.ext
  intro m
  rw [h'.get_iff, hm]
  constructor
  · rintro ⟨h, rfl⟩; exact h
  · intro h
    have := hk _ _ h
    subst this; exact ⟨h, rfl⟩

/-- One call: no panic, the documented result, and the represented map changes as specified. -/
theorem member_step {idOf : M → I} {s : Members I M} (h : Inv idOf s) (op : MemberOp I M)
    (hok : op.Ok idOf s) :
    ∃ s' out, op.apply idOf s = some (s', out) ∧ Inv idOf s' ∧
      (s'.get, out) = op.spec idOf s.get := by
  have R := represents_of_inv h
  cases op with
  | insert m =>
    obtain ⟨s', out, e, hi, ho, hm, _⟩ := insert_ok h m
    refine ⟨s', out, e, hi, ?_⟩
    simp only [MemberOp.spec, Prod.mk.injEq]
    refine ⟨get_ext (s := s) hi _ ?_ ?_, ho⟩
    · intro id x hx
      split at hx
      · injection hx with hx; subst_vars; rfl
      · exact R.keyed _ _ hx
    · intro x
      rw [hm, R.iter]
      by_cases hx : idOf x = idOf m
      · simp only [hx, if_true, ne_eq, not_true_eq_false, and_false, or_false, Option.some.injEq]
        exact eq_comm
      · simp only [hx, if_false, ne_eq, not_false_eq_true, and_true]
        constructor
        · rintro (rfl | h); · exact absurd rfl hx
          exact h
        · exact .inr
  | insertAt m t =>
    obtain ⟨hn, ht⟩ := hok
    have hc : s.contains (idOf m) = false := by rw [R.contains, hn]; rfl
    obtain ⟨s', e, hi, hp⟩ := insertAt_ok h m t hc ht
    refine ⟨s', none, by simp [MemberOp.apply, e], hi, ?_⟩
    simp only [MemberOp.spec, Prod.mk.injEq, and_true]
    refine get_ext (s := s) hi _ ?_ ?_
    · intro id x hx
      split at hx
      · injection hx with hx; subst_vars; rfl
      · exact R.keyed _ _ hx
    · intro x
      rw [hp.mem_iff]
      simp only [List.mem_append, List.mem_singleton, R.iter]
      by_cases hx : idOf x = idOf m
      · rw [hx, hn]; simp [eq_comm]
      · simp only [hx, if_false]
        constructor
        · rintro (h | rfl); · exact h
          exact absurd rfl hx
        · exact .inl
  | remove id =>
    obtain ⟨s', out, e, hi, ho, hm, _⟩ := remove_ok h id
    refine ⟨s', out, e, hi, ?_⟩
    simp only [MemberOp.spec, Prod.mk.injEq]
    refine ⟨get_ext (s := s) hi _ ?_ ?_, ho⟩
    · intro i x hx
      split at hx
      · cases hx
      · exact R.keyed _ _ hx
    · intro x
      rw [hm, R.iter]
      by_cases hx : idOf x = id <;> simp [hx]
  | update id f =>
    refine ⟨_, none, rfl, inv_update h id hok, ?_⟩
    simp only [MemberOp.spec, Prod.mk.injEq, and_true]
    refine get_ext (s := s) (inv_update h id hok) _ ?_ ?_
    · intro i x hx
      split at hx
      · rename_i he; subst he
        simp only [Option.map_eq_some_iff] at hx
        obtain ⟨a, ha, rfl⟩ := hx
        rw [hok]; exact R.keyed _ _ ha
      · exact R.keyed _ _ hx
    · intro x
      simp only [Members.update]
      cases hg : s.nodeMap.get? id with
      | none =>
        simp only [R.iter]
        by_cases hx : idOf x = id
        · rw [hx]; simp [Members.get, hg]
        · simp [hx]
      | some i =>
        obtain ⟨m, hm, hid⟩ := (h.idx id i).1 hg
        have hgm : s.get id = some m := by simp [Members.get, hg, hm]
        simp only [hm]
        have hlt := (List.getElem?_eq_some_iff.1 hm).1
        by_cases hx : idOf x = id
        · simp only [hx, if_true, hgm, Option.map_some, Option.some.injEq]
          constructor
          · intro hmem
            obtain ⟨k, hk⟩ := List.mem_iff_getElem?.1 hmem
            rw [List.getElem?_set] at hk
            split at hk
            · simpa [hlt] using hk
            · rename_i hne
              exact absurd (h.inj hm hk (hid.trans hx.symm)) hne
          · intro he
            exact List.mem_iff_getElem?.2 ⟨i, by simp [hlt, he]⟩
        · simp only [hx, if_false]
          rw [← R.iter]
          constructor
          · intro hmem
            obtain ⟨k, hk⟩ := List.mem_iff_getElem?.1 hmem
            rw [List.getElem?_set] at hk
            split at hk
            · exfalso
              simp only [hlt, if_true, Option.some.injEq] at hk
              subst hk; exact hx ((hok m).trans hid)
            · exact List.mem_of_getElem? hk
          · intro hmem
            obtain ⟨k, hk⟩ := List.mem_iff_getElem?.1 hmem
            have hki : i ≠ k := by
              rintro rfl; rw [hm] at hk; injection hk with hk; subst hk; exact hx hid
            exact List.mem_iff_getElem?.2 ⟨k, by rw [List.getElem?_set, if_neg hki]; exact hk⟩
  | shuffle pick =>
    obtain ⟨s', e, hi, hp⟩ := shuffle_ok pick h
    refine ⟨s', none, by simp [MemberOp.apply, e], hi, ?_⟩
    simp only [MemberOp.spec, Prod.mk.injEq, and_true]
    refine get_ext (s := s) hi _ R.keyed ?_
    intro x
    rw [hp.mem_iff, R.iter]

/-- A run of calls, collecting the results; `none` if some call panics. -/
def runMembers (idOf : M → I) : Members I M → List (MemberOp I M) → Option (Members I M × List (Option M))
  | s, [] => some (s, [])
  | s, op :: ops =>
    match op.apply idOf s with
    | none => none
    | some (s', out) =>
      match runMembers idOf s' ops with
      | none => none
      | some (s'', outs) => some (s'', out :: outs)

/-- The same run on the specification. -/
def runSpec (idOf : M → I) : SpecTable I M → List (MemberOp I M) → SpecTable I M × List (Option M)
  | t, [] => (t, [])
  | t, op :: ops =>
    let (t', out) := op.spec idOf t
    let (t'', outs) := runSpec idOf t' ops
    (t'', out :: outs)

/-- The caller respects the preconditions at every call of the run. -/
def RunOk (idOf : M → I) : Members I M → List (MemberOp I M) → Prop
  | _, [] => True
  | s, op :: ops => op.Ok idOf s ∧ ∀ s' out, op.apply idOf s = some (s', out) → RunOk idOf s' ops

/-- C16. Every sequence of member-table calls runs without a panic, returns what the abstract map
returns, and ends in a table that represents the abstract map: lookup by id is exact, iteration visits
each member exactly once. -/
theorem C16_table_refines_map (idOf : M → I) (ops : List (MemberOp I M))
    (hok : RunOk idOf (Members.new : Members I M) ops) :
    ∃ s outs, runMembers idOf Members.new ops = some (s, outs) ∧
      outs = (runSpec idOf (fun _ => none) ops).2 ∧
      Represents idOf s (runSpec idOf (fun _ => none) ops).1 := by
  have key : ∀ (ops : List (MemberOp I M)) (s : Members I M), Inv idOf s → RunOk idOf s ops →
      ∃ s' outs, runMembers idOf s ops = some (s', outs) ∧ Inv idOf s' ∧
        (s'.get, outs) = runSpec idOf s.get ops := by
    intro ops
    induction ops with
    | nil => intro s h _; exact ⟨s, [], rfl, h, rfl⟩
    | cons op ops ih =>
      intro s h hr
      obtain ⟨s', out, e, hi, hs⟩ := member_step h op hr.1
      obtain ⟨s'', outs, e2, hi2, hs2⟩ := ih s' hi (hr.2 _ _ e)
      refine ⟨s'', out :: outs, by simp [runMembers, e, e2], hi2, ?_⟩
      simp only [runSpec, ← hs, ← hs2]
  obtain ⟨s, outs, e, hi, hs⟩ := key ops Members.new inv_new hok
  have hnew : (Members.new : Members I M).get = fun _ => none := rfl
  rw [hnew] at hs
  have := represents_of_inv hi
  rw [← hs]
  exact ⟨s, outs, e, rfl, this⟩

/-- C16. Shuffling only reorders: the members after a shuffle are a permutation of those before. -/
theorem C16_shuffle_perm (idOf : M → I) (ops : List (MemberOp I M))
    (hok : RunOk idOf (Members.new : Members I M) ops) (pick : Nat → Nat)
    (s : Members I M) (outs : List (Option M)) (hs : runMembers idOf Members.new ops = some (s, outs)) :
    ∃ s', s.shuffle idOf pick = some s' ∧ s'.nodes.Perm s.nodes ∧ ∀ id, s'.get id = s.get id := by
  have key : ∀ (ops : List (MemberOp I M)) (s s' : Members I M) (o : List (Option M)), Inv idOf s →
      RunOk idOf s ops → runMembers idOf s ops = some (s', o) → Inv idOf s' := by
    intro ops
    induction ops with
    | nil => intro s s' o h _ e; simp only [runMembers, Option.some.injEq, Prod.mk.injEq] at e; rw [← e.1]; exact h
    | cons op ops ih =>
      intro s s' o h hr e
      obtain ⟨s1, out, e1, hi, _⟩ := member_step h op hr.1
      simp only [runMembers, e1] at e
      cases h2 : runMembers idOf s1 ops with
      | none => rw [h2] at e; cases e
      | some r =>
        rw [h2] at e
        obtain ⟨a, b⟩ := r
        simp only [Option.some.injEq, Prod.mk.injEq] at e
        rw [← e.1]
        exact ih s1 a b hi (hr.2 _ _ e1) h2
  have hinv := key ops _ s outs inv_new hok hs
  obtain ⟨s', e, hi, hp⟩ := shuffle_ok pick hinv
  refine ⟨s', e, hp, fun id => ?_⟩
  apply Option.ext
  intro m
  rw [hi.get_iff, hinv.get_iff, hp.mem_iff]

-- three inserts at chosen positions, a removal, a shuffle and a replacement
example :
    (runMembers (I := Nat) (M := Nat × Nat) Prod.fst Members.new
      [.insert (1, 10), .insertAt (2, 20) 0, .insertAt (3, 30) 1, .remove 2, .shuffle (fun _ => 0),
        .insert (3, 31)]).map (fun r => (r.1.nodes, r.1.get 3, r.2)) =
      some ([(1, 10), (3, 31)], some (3, 31),
        [none, none, none, some (2, 20), none, some (3, 30)]) := by decide
example : RunOk (I := Nat) (M := Nat × Nat) Prod.fst Members.new
    [.insert (1, 10), .insertAt (2, 20) 0, .remove 2] := by
  refine ⟨trivial, ?_⟩
  intro s' out h
  simp only [MemberOp.apply, Members.insert, Members.new, Map.get?_nil, Option.some.injEq,
    Prod.mk.injEq] at h
  obtain ⟨rfl, _⟩ := h
  exact ⟨⟨by decide, by decide⟩, fun _ _ _ => ⟨trivial, fun _ _ _ => trivial⟩⟩

end Verif.Props
