import Verif.Model.Members
import Verif.Proof.Map
/- Invariant of the member table. -/
namespace Verif.Members
variable {I M : Type} [DecidableEq I]
open Map

/-- The index map is exactly the inverse of the vector. -/
structure Inv (idOf : M → I) (s : Members I M) : Prop where
  nd : NodupKeys s.nodeMap
  idx : ∀ id i, s.nodeMap.get? id = some i ↔ ∃ m, s.nodes[i]? = some m ∧ idOf m = id

variable {idOf : M → I}

theorem Inv.inj {s : Members I M} (h : Inv idOf s) {i j : Nat} {a b : M}
    (hi : s.nodes[i]? = some a) (hj : s.nodes[j]? = some b) (hab : idOf a = idOf b) : i = j := by
  have h1 := (h.idx (idOf a) i).2 ⟨a, hi, rfl⟩
  have h2 := (h.idx (idOf a) j).2 ⟨b, hj, hab.symm⟩
  rw [h1] at h2; injection h2

theorem Inv.ids_nodup {s : Members I M} (h : Inv idOf s) : (s.nodes.map idOf).Nodup := by
  rw [List.Nodup, List.pairwise_map, List.pairwise_iff_getElem]
  intro i j hi hj hij heq
  have := h.inj (List.getElem?_eq_getElem hi) (List.getElem?_eq_getElem hj) heq
  omega

theorem Inv.get_iff {s : Members I M} (h : Inv idOf s) (id : I) (m : M) :
    s.get id = some m ↔ m ∈ s.nodes ∧ idOf m = id := by
  simp only [get]
  cases hg : s.nodeMap.get? id with
  | none =>
    simp only [reduceCtorEq, false_iff]
    rintro ⟨hm, rfl⟩
    obtain ⟨i, hi⟩ := List.mem_iff_getElem?.1 hm
    have := (h.idx (idOf m) i).2 ⟨m, hi, rfl⟩
    rw [hg] at this; cases this
  | some i =>
    simp only
    obtain ⟨m', hm', hid⟩ := (h.idx id i).1 hg
    constructor
    · intro hs
      rw [hs] at hm'; injection hm' with hm'; subst hm'
      exact ⟨List.mem_of_getElem? hs, hid⟩
    · rintro ⟨hm, rfl⟩
      obtain ⟨j, hj⟩ := List.mem_iff_getElem?.1 hm
      have := h.inj hm' hj hid
      subst this; exact hj

theorem inv_new : Inv idOf (new : Members I M) := ⟨nodup_nil, by simp [new]⟩

theorem inv_set {s : Members I M} (h : Inv idOf s) {i : Nat} {a b : M} (hi : s.nodes[i]? = some a)
    (hab : idOf b = idOf a) : Inv idOf { s with nodes := s.nodes.set i b } := by
  refine ⟨h.nd, ?_⟩
  intro id j
  simp only [h.idx, List.getElem?_set]
  by_cases hij : i = j
  · subst hij
    have hlt : i < s.nodes.length := by
      rw [List.getElem?_eq_some_iff] at hi; exact hi.1
    simp only [hi, if_true, hlt, Option.some.injEq, exists_eq_left', hab]
  · simp [hij]

theorem inv_update {s : Members I M} (h : Inv idOf s) (id : I) {f : M → M}
    (hf : ∀ m, idOf (f m) = idOf m) : Inv idOf (s.update id f) := by
  simp only [update]
  split
  · exact h
  · split
    · exact h
    · rename_i m hm
      exact inv_set h hm (hf m)

theorem inv_swap {s : Members I M} (h : Inv idOf s) {i j : Nat} {a b : M}
    (hi : s.nodes[i]? = some a) (hj : s.nodes[j]? = some b) (hij : i ≠ j) :
    ∃ m1 m2, setSlot s.nodeMap (idOf a) j = some m1 ∧ setSlot m1 (idOf b) i = some m2 ∧
      Inv idOf { nodes := (s.nodes.set i b).set j a, nodeMap := m2 } := by
  have hab : idOf a ≠ idOf b := fun he => hij (h.inj hi hj he)
  have ha := (h.idx (idOf a) i).2 ⟨a, hi, rfl⟩
  have hb := (h.idx (idOf b) j).2 ⟨b, hj, rfl⟩
  refine ⟨s.nodeMap.modify (idOf a) (fun _ => j), (s.nodeMap.modify (idOf a) (fun _ => j)).modify (idOf b) (fun _ => i), by simp [setSlot, ha], by simp [setSlot, get?_modify, hab, hb], ?_⟩
  refine ⟨nodup_modify (nodup_modify h.nd (idOf a) (fun _ => j)) (idOf b) (fun _ => i), ?_⟩
  intro id k
  have hil : i < s.nodes.length := (List.getElem?_eq_some_iff.1 hi).1
  have hjl : j < s.nodes.length := (List.getElem?_eq_some_iff.1 hj).1
  simp only [get?_modify, List.getElem?_set, List.length_set]
  by_cases h1 : idOf b = id
  · subst h1
    simp only [if_true, hab, if_false, hb, Option.map_some, Option.some.injEq]
    by_cases hk : j = k
    · subst hk
      simp only [if_true, hjl, Option.some.injEq]
      constructor
      · intro h; exact absurd h hij
      · rintro ⟨m, rfl, hm⟩; exact absurd hm hab
    · simp only [hk, if_false]
      by_cases hk2 : i = k
      · subst hk2; simp [hil]
      · simp only [hk2, if_false, false_iff]
        rintro ⟨m, hm, he⟩
        exact hk (h.inj hj hm he.symm)
  · simp only [h1, if_false]
    by_cases h2 : idOf a = id
    · subst h2
      simp only [if_true, ha, Option.map_some, Option.some.injEq]
      by_cases hk : j = k
      · subst hk; simp [hjl]
      · simp only [hk, if_false, false_iff]
        by_cases hk2 : i = k
        · subst hk2
          simp only [if_true, hil, Option.some.injEq]
          rintro ⟨m, rfl, hm⟩; exact h1 hm
        · simp only [hk2, if_false]
          rintro ⟨m, hm, he⟩
          exact hk2 (h.inj hi hm he.symm)
    · simp only [h2, if_false, h.idx]
      by_cases hk : j = k
      · subst hk
        simp only [if_true, hjl, hj, Option.some.injEq, exists_eq_left', h1, h2]
      · simp only [hk, if_false]
        by_cases hk2 : i = k
        · subst hk2
          simp only [if_true, hil, hi, Option.some.injEq, exists_eq_left', h1, h2]
        · simp only [hk2, if_false]

theorem set_set_perm (l : List M) {i j : Nat} {a b : M} (hi : l[i]? = some a) (hj : l[j]? = some b) :
    ((l.set i b).set j a).Perm l := by
  obtain ⟨hil, hi⟩ := List.getElem?_eq_some_iff.1 hi
  obtain ⟨hjl, hj⟩ := List.getElem?_eq_some_iff.1 hj
  subst hi; subst hj
  exact List.set_set_perm hil hjl

theorem shuffleSwap_ok {s : Members I M} (h : Inv idOf s) {i j : Nat} (hi : i < s.nodes.length)
    (hj : j < s.nodes.length) :
    ∃ s', shuffleSwap idOf s i j = some s' ∧ Inv idOf s' ∧ s'.nodes.Perm s.nodes := by
  simp only [shuffleSwap]
  by_cases hij : i = j
  · simp only [hij, ne_eq, not_true_eq_false, if_false]
    exact ⟨s, rfl, h, List.Perm.refl _⟩
  · have hi' := List.getElem?_eq_getElem hi
    have hj' := List.getElem?_eq_getElem hj
    obtain ⟨m1, m2, e1, e2, hinv⟩ := inv_swap h hi' hj' hij
    simp only [ne_eq, hij, not_false_eq_true, if_true, hi', hj', swapNodes, e1, e2]
    exact ⟨_, rfl, hinv, set_set_perm _ hi' hj'⟩

theorem shuffleLoop_ok (pick : Nat → Nat) (i : Nat) {s : Members I M} (h : Inv idOf s)
    (hi : i < s.nodes.length ∨ i = 0) :
    ∃ s', shuffleLoop idOf pick i s = some s' ∧ Inv idOf s' ∧ s'.nodes.Perm s.nodes := by
  induction i generalizing s with
  | zero => exact ⟨s, rfl, h, List.Perm.refl _⟩
  | succ i ih =>
    have hi' : i + 1 < s.nodes.length := by omega
    have hmod := Nat.mod_lt (pick (i + 1)) (show i + 2 > 0 by omega)
    obtain ⟨s', e, hinv, hp⟩ := shuffleSwap_ok h hi' (show pick (i + 1) % (i + 2) < s.nodes.length by omega)
    have hl := hp.length_eq
    obtain ⟨s'', e2, hinv2, hp2⟩ := ih hinv (.inl (by omega))
    refine ⟨s'', ?_, hinv2, hp2.trans hp⟩
    simp only [shuffleLoop, e, e2]

theorem shuffle_ok (pick : Nat → Nat) {s : Members I M} (h : Inv idOf s) :
    ∃ s', shuffle idOf s pick = some s' ∧ Inv idOf s' ∧ s'.nodes.Perm s.nodes :=
  shuffleLoop_ok pick _ h (by omega)

theorem inv_push {s : Members I M} (h : Inv idOf s) {m : M} (hn : s.nodeMap.get? (idOf m) = none) :
    Inv idOf { nodes := s.nodes ++ [m], nodeMap := s.nodeMap.insert (idOf m) s.nodes.length } := by
  refine ⟨nodup_insert h.nd _ _, ?_⟩
  intro id i
  simp only [get?_insert]
  by_cases h1 : idOf m = id
  · subst h1
    simp only [if_true, Option.some.injEq]
    constructor
    · rintro rfl; exact ⟨m, by simp, rfl⟩
    · rintro ⟨m', hm', he⟩
      rw [List.getElem?_append] at hm'
      split at hm'
      · have := (h.idx (idOf m) i).2 ⟨m', hm', he⟩
        rw [hn] at this; cases this
      · rename_i hge
        have := (List.getElem?_eq_some_iff.1 hm').1
        simp at this; omega
  · simp only [h1, if_false, h.idx]
    constructor
    · rintro ⟨m', hm', he⟩
      have := (List.getElem?_eq_some_iff.1 hm').1
      exact ⟨m', by rw [List.getElem?_append_left this]; exact hm', he⟩
    · rintro ⟨m', hm', he⟩
      rw [List.getElem?_append] at hm'
      split at hm'
      · exact ⟨m', hm', he⟩
      · rename_i hge
        obtain ⟨hlt, heq⟩ := List.getElem?_eq_some_iff.1 hm'
        simp at hlt
        have : i - s.nodes.length = 0 := by omega
        simp [this] at heq
        subst heq; exact absurd he h1

theorem insert_ok {s : Members I M} (h : Inv idOf s) (m : M) :
    ∃ s' out, insert idOf s m = some (s', out) ∧ Inv idOf s' ∧ out = s.get (idOf m) ∧
      (∀ x, x ∈ s'.nodes ↔ x = m ∨ (x ∈ s.nodes ∧ idOf x ≠ idOf m)) ∧
      (out = none → s'.nodes = s.nodes ++ [m]) := by
  simp only [insert]
  cases hg : s.nodeMap.get? (idOf m) with
  | none =>
    refine ⟨_, _, rfl, inv_push h hg, by simp [get, hg], ?_, fun _ => rfl⟩
    intro x
    simp only [List.mem_append, List.mem_singleton]
    constructor
    · rintro (hx | rfl)
      · right
        refine ⟨hx, fun he => ?_⟩
        obtain ⟨i, hi⟩ := List.mem_iff_getElem?.1 hx
        have := (h.idx (idOf m) i).2 ⟨x, hi, he⟩
        rw [hg] at this; cases this
      · left; rfl
    · rintro (rfl | ⟨hx, _⟩)
      · right; rfl
      · left; exact hx
  | some i =>
    obtain ⟨m', hm', hid⟩ := (h.idx (idOf m) i).1 hg
    simp only [hm']
    refine ⟨_, _, rfl, inv_set h hm' hid.symm, by simp [get, hg, hm'], ?_, by simp⟩
    intro x
    have hlt := (List.getElem?_eq_some_iff.1 hm').1
    simp only
    constructor
    · intro hx
      obtain ⟨k, hk⟩ := List.mem_iff_getElem?.1 hx
      rw [List.getElem?_set] at hk
      split at hk
      · left; simp [hlt] at hk; exact hk.symm
      · rename_i hne
        right
        refine ⟨List.mem_of_getElem? hk, fun he => hne (h.inj hm' hk (hid.trans he.symm))⟩
    · rintro (rfl | ⟨hx, hne⟩)
      · exact List.mem_iff_getElem?.2 ⟨i, by simp [hlt]⟩
      · obtain ⟨k, hk⟩ := List.mem_iff_getElem?.1 hx
        have hki : i ≠ k := by
          rintro rfl; rw [hm'] at hk; injection hk with hk; subst hk; exact hne hid
        exact List.mem_iff_getElem?.2 ⟨k, by rw [List.getElem?_set, if_neg hki]; exact hk⟩

theorem insertAt_ok {s : Members I M} (h : Inv idOf s) (m : M) (t : Nat)
    (hc : s.contains (idOf m) = false) (ht : t ≤ s.len) :
    ∃ s', insertAt idOf s m t = some s' ∧ Inv idOf s' ∧ s'.nodes.Perm (s.nodes ++ [m]) := by
  have hn : s.nodeMap.get? (idOf m) = none := by
    simpa [contains, Map.contains] using hc
  have hp := inv_push h hn
  have ht' : ¬ t > s.nodes.length := by simp only [len] at ht; omega
  simp only [insertAt, hc, Bool.false_eq_true, if_false, ht']
  by_cases htn : t = s.nodes.length
  · simp only [htn, ne_eq, not_true_eq_false, if_false]
    exact ⟨_, rfl, hp, List.Perm.refl _⟩
  · simp only [ne_eq, htn, not_false_eq_true, if_true]
    have htl : t < s.nodes.length := by omega
    have h1 : (s.nodes ++ [m])[s.nodes.length]? = some m := by simp
    have h2 : (s.nodes ++ [m])[t]? = some s.nodes[t] := by
      rw [List.getElem?_append_left htl, List.getElem?_eq_getElem htl]
    obtain ⟨m1, m2, e1, e2, hinv⟩ := inv_swap hp h1 h2 (Ne.symm htn)
    simp only at e1 e2 hinv
    have h3 : (((s.nodes ++ [m]).set s.nodes.length s.nodes[t]).set t m)[s.nodes.length]? =
        some s.nodes[t] := by
      rw [List.getElem?_set, if_neg htn, List.getElem?_set_self (by simp)]
    simp only [swapNodes, h1, h2, h3, e1, e2]
    exact ⟨_, rfl, hinv, set_set_perm _ h1 h2⟩

theorem mem_eraseIdx_iff {s : Members I M} (h : Inv idOf s) {i : Nat} {m : M}
    (hm : s.nodes[i]? = some m) (x : M) :
    x ∈ s.nodes.eraseIdx i ↔ x ∈ s.nodes ∧ idOf x ≠ idOf m := by
  rw [List.mem_eraseIdx_iff_getElem?]
  constructor
  · rintro ⟨k, hk, hx⟩
    exact ⟨List.mem_of_getElem? hx, fun he => hk (h.inj hx hm he)⟩
  · rintro ⟨hx, hne⟩
    obtain ⟨k, hk⟩ := List.mem_iff_getElem?.1 hx
    refine ⟨k, ?_, hk⟩
    rintro rfl
    rw [hm] at hk; injection hk with hk; subst hk; exact hne rfl

theorem remove_ok {s : Members I M} (h : Inv idOf s) (id : I) :
    ∃ s' out, remove s id = some (s', out) ∧ Inv idOf s' ∧ out = s.get id ∧
      (∀ x, x ∈ s'.nodes ↔ x ∈ s.nodes ∧ idOf x ≠ id) ∧ s'.nodes.Sublist s.nodes := by
  simp only [remove]
  cases hg : s.nodeMap.get? id with
  | none =>
    refine ⟨_, _, rfl, h, by simp [get, hg], ?_, List.Sublist.refl _⟩
    intro x
    constructor
    · intro hx
      refine ⟨hx, fun he => ?_⟩
      obtain ⟨i, hi⟩ := List.mem_iff_getElem?.1 hx
      have := (h.idx id i).2 ⟨x, hi, he⟩
      rw [hg] at this; cases this
    · exact fun hx => hx.1
  | some i =>
    obtain ⟨m, hm, hid⟩ := (h.idx id i).1 hg
    subst hid
    simp only [hm]
    refine ⟨_, _, rfl, ?_, by simp [get, hg, hm], mem_eraseIdx_iff h hm, List.eraseIdx_sublist _ _⟩
    have hkeys : ∀ m : Map I Nat,
        keys (m.map (fun e => (e.1, if e.2 > i then e.2 - 1 else e.2))) = keys m := by
      intro m; simp [keys, List.map_map, Function.comp_def]
    have hget : ∀ (mp : Map I Nat) (id' : I),
        Map.get? (mp.map (fun e => (e.1, if e.2 > i then e.2 - 1 else e.2))) id' =
          (mp.get? id').map (fun v => if v > i then v - 1 else v) := by
      intro mp id'
      induction mp with
      | nil => rfl
      | cons e mp ih =>
        obtain ⟨a, b⟩ := e
        simp only [List.map_cons, get?_cons, ih]
        split <;> rfl
    refine ⟨?_, ?_⟩
    · have := nodup_erase h.nd (idOf m)
      rw [NodupKeys] at this ⊢
      rw [hkeys]; exact this
    · intro id' k
      simp only [hget, get?_erase]
      by_cases he : idOf m = id'
      · subst he
        simp only [if_true, Option.map_none, reduceCtorEq, false_iff]
        rintro ⟨x, hx, hxe⟩
        have := (mem_eraseIdx_iff h hm x).1 (List.mem_of_getElem? hx)
        exact this.2 hxe
      · simp only [he, if_false, Option.map_eq_some_iff, h.idx, List.getElem?_eraseIdx]
        constructor
        · rintro ⟨v, ⟨x, hx, hxe⟩, rfl⟩
          have hvi : v ≠ i := by
            rintro rfl; rw [hm] at hx; injection hx with hx; subst hx; exact he hxe
          refine ⟨x, ?_, hxe⟩
          by_cases hv : v > i
          · simp only [hv, if_true]
            have h1 : ¬ (v - 1 < i) := by omega
            have h2 : v - 1 + 1 = v := by omega
            simp only [h1, if_false, h2, hx]
          · simp only [hv, if_false]
            have h1 : v < i := by omega
            simp only [h1, if_true, hx]
        · rintro ⟨x, hx, hxe⟩
          split at hx
          · rename_i hlt
            exact ⟨k, ⟨x, hx, hxe⟩, by simp; omega⟩
          · rename_i hge
            exact ⟨k + 1, ⟨x, hx, hxe⟩, by simp; omega⟩

end Verif.Members
