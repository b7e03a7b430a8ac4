import Verif.Proof.Deadline
/- C15: the deadline index always reports the true earliest deadline. -/
namespace Verif.Props
open DeadlineIndex Map

/-- One call on a deadline index. -/
inductive DeadlineOp (K : Type) where
  | set (key : K) (deadline : Option Nat)
  | clear

variable {K : Type} [DecidableEq K]

def DeadlineOp.apply (s : DeadlineIndex K) : DeadlineOp K → DeadlineIndex K
  | .set k d => s.set k d
  | .clear => s.clear

/-- Specification: the deadline most recently registered for `k` (`none` when it was cleared, or never
registered), read off the history alone. -/
def lastDeadline (k : K) : List (DeadlineOp K) → Option Nat
  | [] => none
  | ops@(_ :: _) => go none ops
where
  go (acc : Option Nat) : List (DeadlineOp K) → Option Nat
    | [] => acc
    | .set k' d :: ops => go (if k' = k then d else acc) ops
    | .clear :: ops => go none ops

theorem deadline_run (ops : List (DeadlineOp K)) :
    Inv (ops.foldl DeadlineOp.apply DeadlineIndex.new) ∧
      ∀ k, (ops.foldl DeadlineOp.apply DeadlineIndex.new).deadlineOf k = lastDeadline k ops := by
  have key : ∀ (ops : List (DeadlineOp K)) (s : DeadlineIndex K), Inv s →
      Inv (ops.foldl DeadlineOp.apply s) ∧
        ∀ k, (ops.foldl DeadlineOp.apply s).deadlineOf k = lastDeadline.go k (s.deadlineOf k) ops := by
    intro ops
    induction ops with
    | nil => intro s I; exact ⟨I, fun k => rfl⟩
    | cons op ops ih =>
      intro s I
      cases op with
      | set k0 d0 =>
        have := ih (s.set k0 d0) (inv_set I _ _)
        refine ⟨this.1, fun k => ?_⟩
        rw [List.foldl_cons]
        simp only [DeadlineOp.apply, lastDeadline.go]
        rw [this.2 k, deadlineOf_set]
      | clear =>
        have := ih s.clear (inv_clear I)
        refine ⟨this.1, fun k => ?_⟩
        rw [List.foldl_cons]
        simp only [DeadlineOp.apply, lastDeadline.go]
        rw [this.2 k]; rfl
  obtain ⟨h1, h2⟩ := key ops DeadlineIndex.new inv_new
  refine ⟨h1, fun k => ?_⟩
  rw [h2 k]
  cases ops <;> rfl

/-- C15. After any history, the earliest deadline is the minimum of the deadlines most recently
registered. -/
theorem C15_earliest_is_min (ops : List (DeadlineOp K)) (d : Nat) :
    (ops.foldl DeadlineOp.apply DeadlineIndex.new).earliest = some d ↔
      (∃ k, lastDeadline k ops = some d) ∧ ∀ k d', lastDeadline k ops = some d' → d ≤ d' := by
  obtain ⟨I, h⟩ := deadline_run ops
  rw [earliest_spec I]
  simp [h]

/-- C15. It reports no deadline exactly when no key has one; `is_empty` agrees. -/
theorem C15_earliest_none_iff (ops : List (DeadlineOp K)) :
    ((ops.foldl DeadlineOp.apply DeadlineIndex.new).earliest = none ↔
      ∀ k, lastDeadline k ops = none) ∧
    ((ops.foldl DeadlineOp.apply DeadlineIndex.new).isEmpty = true ↔
      ∀ k, lastDeadline k ops = none) := by
  obtain ⟨I, h⟩ := deadline_run ops
  have h1 := earliest_none I
  simp only [h] at h1
  refine ⟨h1, ?_⟩
  rw [← h1]
  have hs := firstKey_spec (ops.foldl DeadlineOp.apply DeadlineIndex.new).byDeadline
  simp only [isEmpty, earliest, Option.map_eq_none_iff, List.isEmpty_iff]
  constructor
  · intro h; rw [h]; rfl
  · intro h; rw [h] at hs; exact hs

/-- C15. Storage is exactly one entry per key that currently has a deadline, however many updates were
made. -/
theorem C15_one_entry_per_live_key (ops : List (DeadlineOp K)) :
    let s := ops.foldl DeadlineOp.apply DeadlineIndex.new
    (s.byDeadline.map Prod.snd).Nodup ∧
      (∀ k, k ∈ s.byDeadline.map Prod.snd ↔ (lastDeadline k ops).isSome = true) ∧
      s.byDeadline.length = s.current.length := by
  obtain ⟨I, h⟩ := deadline_run ops
  simp only
  generalize ops.foldl DeadlineOp.apply DeadlineIndex.new = s at I h
  have hnd : (s.byDeadline.map Prod.snd).Nodup := by
    have hp : s.byDeadline.Pairwise (fun a b => a.1 ≠ b.1) := by
      have := I.nd; simpa [NodupKeys, keys, List.Nodup, List.pairwise_map] using this
    rw [List.Nodup, List.pairwise_map]
    refine List.Pairwise.imp_of_mem ?_ hp
    intro a b ha hb hne heq
    have h1 := (I.mirror a.1.1 a.1.2 a.2).1 (get?_of_mem I.nd ha)
    have h2 := (I.mirror b.1.1 b.1.2 b.2).1 (get?_of_mem I.nd hb)
    rw [heq, h2] at h1
    injection h1 with h1
    exact hne h1.symm
  have hmem : ∀ k, k ∈ s.byDeadline.map Prod.snd ↔ k ∈ keys s.current := by
    intro k
    rw [List.mem_map, mem_keys]
    constructor
    · rintro ⟨⟨⟨d, q⟩, k'⟩, hm, rfl⟩
      exact ⟨_, mem_of_get? ((I.mirror d q k').1 (get?_of_mem I.nd hm))⟩
    · rintro ⟨⟨d, q⟩, hm⟩
      exact ⟨_, mem_of_get? ((I.mirror d q k).2 (get?_of_mem I.nc hm)), rfl⟩
  refine ⟨hnd, ?_, ?_⟩
  · intro k
    rw [hmem, mem_keys_iff, ← h k]
    simp [deadlineOf]
  · have hp : (s.byDeadline.map Prod.snd).Perm (keys s.current) :=
      (List.perm_ext_iff_of_nodup hnd I.nc).2 hmem
    have := hp.length_eq
    simpa [keys] using this

example :
    let s := [DeadlineOp.set 1 (some 9), .set 2 (some 7), .set 2 (some 12), .set 3 (some 9),
      .set 1 none].foldl DeadlineOp.apply (DeadlineIndex.new (K := Nat))
    s.earliest = some 9 ∧ s.byDeadline.length = 2 := by decide
example : lastDeadline 2 [DeadlineOp.set 2 (some 7), .set 2 (some 12), .set 3 (some 9)] = some 12 := by
  decide

end Verif.Props
