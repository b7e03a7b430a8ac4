import Verif.Spec.Cidr
namespace Verif
open Spec

theorem shift_eq_iff {w : Nat} (n a : BitVec w) (p : Nat) (hp : p ≤ w) :
    (n >>> (w - p) = a >>> (w - p)) ↔ ∀ i, i < p → n.getMsbD i = a.getMsbD i := by
  constructor
  · intro h i hi
    have := congrArg (fun v => v.getLsbD (p - 1 - i)) h
    simp only [BitVec.getLsbD_ushiftRight] at this
    have e : w - p + (p - 1 - i) = w - 1 - i := by omega
    rw [e] at this
    simp only [BitVec.getMsbD]
    rw [this]
  · intro h
    apply BitVec.eq_of_getLsbD_eq
    intro j hj
    simp only [BitVec.getLsbD_ushiftRight]
    by_cases hjp : j < p
    · have := h (p - 1 - j) (by omega)
      simp only [BitVec.getMsbD] at this
      have e : w - 1 - (p - 1 - j) = w - p + j := by omega
      rw [e] at this
      have hlt : p - 1 - j < w := by omega
      simpa [hlt] using this
    · rw [BitVec.getLsbD_of_ge _ _ (by omega), BitVec.getLsbD_of_ge _ _ (by omega)]

theorem contains_iff (n : IpNet) (a : Ip) : n.contains a = true ↔ InNet n a := by
  cases n with
  | v4 n p =>
    cases a with
    | v4 a =>
      simp only [IpNet.contains, InNet, beq_iff_eq]
      exact shift_eq_iff n a p.val (by omega)
    | v6 a => simp [IpNet.contains, InNet]
  | v6 n p =>
    cases a with
    | v4 a => simp [IpNet.contains, InNet]
    | v6 a =>
      simp only [IpNet.contains, InNet, beq_iff_eq]
      exact shift_eq_iff n a p.val (by omega)

theorem mem_setInsert (s : List IpNet) (n m : IpNet) :
    m ∈ CidrPolicy.setInsert s n ↔ m = n ∨ m ∈ s := by
  unfold CidrPolicy.setInsert
  split
  · constructor
    · exact Or.inr
    · rintro (rfl | h)
      · assumption
      · exact h
  · simp

theorem nodup_setInsert {s : List IpNet} (h : s.Nodup) (n : IpNet) :
    (CidrPolicy.setInsert s n).Nodup := by
  unfold CidrPolicy.setInsert
  split
  · exact h
  · exact List.nodup_cons.2 ⟨by assumption, h⟩

theorem mem_foldl_setInsert (l : List IpNet) : ∀ (s : List IpNet) (m : IpNet),
    m ∈ l.foldl CidrPolicy.setInsert s ↔ m ∈ s ∨ m ∈ l := by
  induction l with
  | nil => simp
  | cons n l ih =>
    intro s m
    simp only [List.foldl_cons, ih, mem_setInsert, List.mem_cons]
    constructor
    · rintro ((h | h) | h)
      · exact .inr (.inl h)
      · exact .inl h
      · exact .inr (.inr h)
    · rintro (h | h | h)
      · exact .inl (.inr h)
      · exact .inl (.inl h)
      · exact .inr h

/-- Membership of a network after one step. -/
theorem mem_step (p : CidrPolicy) (o : CidrOp) (n : IpNet) :
    n ∈ initialNets (applyCidr p o) ↔ o = .add n ∨ (n ∈ initialNets p ∧ ¬ Removes n o) := by
  obtain ⟨al⟩ := p
  cases o with
  | add m =>
    simp only [applyCidr, CidrPolicy.add, initialNets, Option.getD_some, mem_setInsert, Removes,
      not_false_eq_true, and_true, CidrOp.add.injEq]
    constructor
    · rintro (h | h)
      · exact .inl h.symm
      · exact .inr h
    · rintro (h | h)
      · exact .inl h.symm
      · exact .inr h
  | remove m =>
    cases al with
    | none => simp [applyCidr, CidrPolicy.remove, initialNets]
    | some s =>
      simp only [applyCidr, CidrPolicy.remove, initialNets, Option.getD_some, List.mem_filter, Removes,
        reduceCtorEq, false_or, decide_eq_true_eq, ne_eq]
      constructor
      · rintro ⟨h, h'⟩; exact ⟨h, fun e => h' e.symm⟩
      · rintro ⟨h, h'⟩; exact ⟨h, fun e => h' e.symm⟩
  | removeByIp ip =>
    cases al with
    | none => simp [applyCidr, CidrPolicy.removeByIp, initialNets]
    | some s =>
      simp only [applyCidr, CidrPolicy.removeByIp, initialNets, Option.getD_some, List.mem_filter, Removes,
        reduceCtorEq, false_or, Bool.not_eq_true', ← contains_iff, Bool.not_eq_true]

theorem mem_run (ops : List CidrOp) : ∀ (p : CidrPolicy) (n : IpNet),
    n ∈ initialNets (runCidr p ops) ↔ Listed (initialNets p) ops n := by
  induction ops with
  | nil =>
    intro p n
    simp [runCidr, Listed]
  | cons o ops ih =>
    intro p n
    have e : runCidr p (o :: ops) = runCidr (applyCidr p o) ops := rfl
    rw [e, ih]
    unfold Listed
    rw [mem_step]
    constructor
    · rintro (⟨h | ⟨h, hr⟩, h'⟩ | ⟨b, a, rfl, h⟩)
      · subst h
        exact .inr ⟨[], ops, rfl, h'⟩
      · refine .inl ⟨h, ?_⟩
        intro x hx
        rcases List.mem_cons.1 hx with rfl | hx
        · exact hr
        · exact h' x hx
      · exact .inr ⟨o :: b, a, rfl, h⟩
    · rintro (⟨h, h'⟩ | ⟨b, a, hb, h⟩)
      · exact .inl ⟨.inr ⟨h, h' o (by simp)⟩, fun x hx => h' x (by simp [hx])⟩
      · cases b with
        | nil =>
          simp only [List.nil_append, List.cons.injEq] at hb
          obtain ⟨rfl, rfl⟩ := hb
          exact .inl ⟨.inl rfl, h⟩
        | cons x b =>
          simp only [List.cons_append, List.cons.injEq] at hb
          obtain ⟨rfl, rfl⟩ := hb
          exact .inr ⟨b, a, rfl, h⟩

theorem none_step (p : CidrPolicy) (o : CidrOp) :
    (applyCidr p o).allowed = none ↔ p.allowed = none ∧ ∀ n, o ≠ .add n := by
  obtain ⟨al⟩ := p
  cases o with
  | add m => simp [applyCidr, CidrPolicy.add]
  | remove m => cases al <;> simp [applyCidr, CidrPolicy.remove]
  | removeByIp ip => cases al <;> simp [applyCidr, CidrPolicy.removeByIp]

theorem none_run (ops : List CidrOp) : ∀ p : CidrPolicy,
    (runCidr p ops).allowed = none ↔ p.allowed = none ∧ ¬ AddsSome ops := by
  induction ops with
  | nil => intro p; simp [runCidr, AddsSome]
  | cons o ops ih =>
    intro p
    have e : runCidr p (o :: ops) = runCidr (applyCidr p o) ops := rfl
    rw [e, ih, none_step]
    simp only [AddsSome, List.mem_cons, not_exists, not_or]
    constructor
    · rintro ⟨⟨h, h1⟩, h2⟩
      exact ⟨h, fun n => ⟨fun e => h1 n e.symm, h2 n⟩⟩
    · rintro ⟨h, h1⟩
      exact ⟨⟨h, fun n e => (h1 n).1 e.symm⟩, fun n => (h1 n).2⟩

theorem isAllowed_iff (p : CidrPolicy) (ip : Ip) :
    p.isAllowed ip = true ↔ p.allowed = none ∨ ∃ n ∈ initialNets p, InNet n ip := by
  obtain ⟨al⟩ := p
  cases al with
  | none => simp [CidrPolicy.isAllowed]
  | some s =>
    simp only [CidrPolicy.isAllowed, List.any_eq_true, contains_iff, initialNets, Option.getD_some,
      reduceCtorEq, false_or]

end Verif
