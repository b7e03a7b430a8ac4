import Verif.Proof.BroadcastRun
namespace Verif
open Spec Map BQueue

section greedy
variable {α : Type} [Entry α]

theorem Greedy.shift {ov l : Nat} {q : List α} {u : Nat} {out : List α} (h : Greedy ov l q u out) (k : Nat) :
    Greedy ov (l + k) q (u + k) out := by
  induction h with
  | stop h => exact .stop (fun y hy => by have := h y hy; omega)
  | pick hq hfit hbest hrest ih =>
    refine .pick hq (by omega) (fun y hy hf => hbest y hy (by omega)) ?_
    have e : ∀ u s : Nat, u + k + s = u + s + k := by omega
    rw [e]; exact ih

theorem Greedy.rest {ov l : Nat} {q : List α} {u : Nat} {out : List α} (h : Greedy ov l q u out) :
    ∃ rest, q.Perm (out ++ rest) ∧ ∀ y ∈ rest, l < u + charge ov out + (Entry.size y + ov) := by
  induction h with
  | @stop q u h => exact ⟨q, by simp, by simpa [charge] using h⟩
  | @pick q q' u x out hq hfit hbest hrest ih =>
    obtain ⟨rest, h1, h2⟩ := ih
    refine ⟨rest, ?_, ?_⟩
    · rw [List.cons_append]; exact hq.trans (h1.cons x)
    · intro y hy
      have := h2 y hy
      simp only [charge, List.map_cons, List.sum_cons] at this ⊢
      omega

theorem Greedy.pref {ov l : Nat} {q : List α} {u : Nat} {out : List α} (h : Greedy ov l q u out)
    (pre : List α) (x : α) (post : List α) (e : out = pre ++ x :: post) :
    ∃ rest, q.Perm (pre ++ x :: rest) ∧ u + charge ov pre + (Entry.size x + ov) ≤ l ∧
      ∀ y ∈ rest, u + charge ov pre + (Entry.size y + ov) ≤ l → Preferred x y := by
  induction h generalizing pre with
  | stop h => simp at e
  | @pick q q' u z out hq hfit hbest hrest ih =>
    cases pre with
    | nil =>
      simp only [List.nil_append, List.cons.injEq] at e
      obtain ⟨rfl, rfl⟩ := e
      exact ⟨q', hq, by simpa [charge] using hfit, by simpa [charge] using hbest⟩
    | cons p pre =>
      simp only [List.cons_append, List.cons.injEq] at e
      obtain ⟨rfl, e⟩ := e
      obtain ⟨rest, h1, h2, h3⟩ := ih pre e
      refine ⟨rest, ?_, ?_, ?_⟩
      · rw [List.cons_append]; exact hq.trans (h1.cons _)
      · simp only [charge, List.map_cons, List.sum_cons] at h2 ⊢; omega
      · intro y hy hf
        refine h3 y hy ?_
        simp only [charge, List.map_cons, List.sum_cons] at hf ⊢; omega

theorem charge_append (ov : Nat) (a b : List α) : charge ov (a ++ b) = charge ov a + charge ov b := by
  simp [charge, List.sum_append]
end greedy

variable {Id B Msg : Type} [DecidableEq Id] {ops : BroadcastOps Id B Msg}

/-- A tier that has seen at most `k` queue calls. -/
structure TierOk (ops : BroadcastOps Id B Msg) (k : Nat) (t : BQueue Id B) : Prop where
  inv : Inv ops t
  gen : t.idGen ≤ t.calls
  calls : t.calls ≤ k

theorem TierOk.mono {k k' : Nat} {t : BQueue Id B} (h : TierOk ops k t) (hk : k ≤ k') :
    TierOk ops k' t := ⟨h.inv, h.gen, Nat.le_trans h.calls hk⟩

namespace UserBroadcasts

theorem takeLoop_spec (hU : ∀ m, ops.encodedLen m ≤ U64_MAX) (n overhead limit k : Nat) (hk : k ≤ U64_MAX)
    (ts : List (BQueue Id B)) (used : Nat) (hts : ∀ t ∈ ts, TierOk ops k t) (hu : used ≤ limit) :
    let r := takeLoop ops n overhead limit ts used
    (∀ t ∈ r.1, TierOk ops k t) ∧ r.1.length = ts.length ∧ r.2.1.length ≤ ts.length ∧
      r.2.2.1 = used + charge overhead r.2.1.flatten ∧ r.2.2.1 ≤ limit ∧
      (∀ i s, r.2.1[i]? = some s → ∃ t, ts[i]? = some t ∧
        Greedy overhead limit t.q (used + charge overhead (r.2.1.take i).flatten) s) ∧
      (r.2.1.length < ts.length → r.2.2.1 = limit) := by
  induction ts generalizing used with
  | nil => simp only [takeLoop]; exact ⟨hts, trivial, Nat.le_refl _, by simp [charge], hu, by simp, by simp⟩
  | cons t ts ih =>
    simp only [takeLoop]
    by_cases hf : used ≥ limit
    · simp only [hf, if_true]
      exact ⟨hts, trivial, by simp, by simp [charge], hu, by simp, by intro _; omega⟩
    · simp only [hf, if_false]
      have ht := hts t (by simp)
      obtain ⟨D, G⟩ := takeMeasured_spec hU ht.inv
        (Nat.le_trans ht.gen (Nat.le_trans ht.calls hk)) n overhead (limit - used)
      revert D G
      generalize t.takeMeasured ops n overhead (limit - used) = d
      intro D G
      have hbd := D.bound
      have IH := ih (used + d.used) (fun t ht => hts t (by simp [ht])) (by omega)
      revert IH
      generalize takeLoop ops n overhead limit ts (used + d.used) = r
      obtain ⟨ts', sent, used', fin⟩ := r
      simp only
      rintro ⟨h1, h2, h3, h4, h5, h6, h7⟩
      refine ⟨?_, by simp [h2], by simpa using h3, ?_, h5, ?_, ?_⟩
      · intro t' ht'
        rcases List.mem_cons.1 ht' with rfl | ht'
        · exact ⟨D.inv, by rw [D.calls]; exact Nat.le_trans D.idGen ht.gen, by rw [D.calls]; exact ht.calls⟩
        · exact h1 t' ht'
      · rw [h4, List.flatten_cons, charge_append, D.used]; omega
      · intro i s hs
        cases i with
        | zero =>
          simp only [List.getElem?_cons_zero, Option.some.injEq] at hs
          subst hs
          refine ⟨t, by simp, ?_⟩
          have := Greedy.shift G used
          have e : limit - used + used = limit := by omega
          rw [e] at this
          simpa [charge] using this
        | succ i =>
          simp only [List.getElem?_cons_succ] at hs
          obtain ⟨t', ht', hG⟩ := h6 i s hs
          refine ⟨t', by simpa using ht', ?_⟩
          rw [List.take_succ_cons, List.flatten_cons, charge_append, ← D.used, ← Nat.add_assoc]
          exact hG
      · intro hlt
        simp only [List.length_cons] at hlt
        exact h7 (by omega)

end UserBroadcasts
end Verif
