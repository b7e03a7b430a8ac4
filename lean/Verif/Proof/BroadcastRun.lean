import Verif.Model.BroadcastRun
import Verif.Proof.Broadcast
namespace Verif
open Spec Map BQueue
variable {Id B Msg : Type} [DecidableEq Id] {ops : BroadcastOps Id B Msg}

/-- Occurrences of broadcast number `t`. -/
def cnt (t : Nat) (l : List (LB B)) : Nat := (l.map LB.tok).count t

theorem cnt_nil (t : Nat) : cnt t ([] : List (LB B)) = 0 := rfl
theorem cnt_append (t : Nat) (a b : List (LB B)) : cnt t (a ++ b) = cnt t a + cnt t b := by
  simp [cnt, List.count_append]
theorem cnt_perm {a b : List (LB B)} (h : a.Perm b) (t : Nat) : cnt t a = cnt t b :=
  (h.map LB.tok).count_eq t
theorem cnt_cons (t : Nat) (x : LB B) (l : List (LB B)) :
    cnt t (x :: l) = cnt t l + (if x.tok = t then 1 else 0) := by
  simp [cnt, List.count_cons]
theorem cnt_pos {t : Nat} {l : List (LB B)} {x : LB B} (hx : x ∈ l) (h : x.tok = t) : 0 < cnt t l :=
  List.count_pos_iff.2 (List.mem_map.2 ⟨x, hx, h⟩)
theorem exists_of_cnt {t : Nat} {l : List (LB B)} (h : 0 < cnt t l) : ∃ x ∈ l, x.tok = t := by
  simpa [cnt] using List.count_pos_iff.1 h
theorem cnt_filter (t : Nat) (p : LB B → Bool) (l : List (LB B)) :
    cnt t l = cnt t (l.filter p) + cnt t (l.filter (fun x => !p x)) := by
  rw [← cnt_append]; exact cnt_perm (filter_perm l p) t
theorem cnt_bump (t : Nat) (l : List (LB B)) : cnt t (l.map bump) = cnt t l := by
  simp [cnt, List.map_map, Function.comp_def, bump]

/-- Ledger of a run after the history `h`. -/
structure Ledger (ops : BroadcastOps Id B Msg) (mult : Nat) (h : List (QOp B)) (r : QRun Id B) :
    Prop where
  inv : Inv ops r.s
  gen : r.s.idGen ≤ r.s.calls
  calls : r.s.calls = (QOp.queued h).length
  mult : r.s.mult = mult
  once : ∀ t, cnt t r.finished + cnt t r.s.q = if t < r.s.calls then 1 else 0
  hand : ∀ x ∈ r.s.q, cnt x.tok r.handed = x.transmits
  fresh : ∀ t, r.s.calls ≤ t → cnt t r.handed = 0
  orig : ∀ x, x ∈ r.s.q ∨ x ∈ r.handed ∨ x ∈ r.finished → (QOp.queued h)[x.tok]? = some x.broadcast

theorem Ledger.start (mult : Nat) : Ledger ops mult [] (QRun.start mult : QRun Id B) where
  inv := inv_new mult
  gen := Nat.le_refl _
  calls := rfl
  mult := rfl
  once := by intro t; simp [QRun.start, new, cnt_nil]
  hand := by intro x hx; simp [QRun.start, new] at hx
  fresh := by intro t _; rfl
  orig := by intro x hx; simp [QRun.start, new] at hx

theorem queued_append (h : List (QOp B)) (o : QOp B) :
    QOp.queued (h ++ [o]) = QOp.queued h ++ (match o with | .queue b => [b] | _ => []) := by
  simp only [QOp.queued, List.filterMap_append]
  cases o <;> rfl

/-- Removing entries from the queue with a notification for each. -/
theorem Ledger.drop {mult : Nat} {h : List (QOp B)} {r : QRun Id B} (L : Ledger ops mult h r)
    {s' : BQueue Id B} {fin : List (LB B)} (h' : List (QOp B)) (hq : QOp.queued h' = QOp.queued h)
    (hi : Inv ops s') (hc : s'.calls = r.s.calls) (hm : s'.mult = r.s.mult)
    (hg : s'.idGen ≤ r.s.idGen) (hp : r.s.q.Perm (fin ++ s'.q)) :
    Ledger ops mult h' { s := s', handed := r.handed, finished := r.finished ++ fin } where
  inv := hi
  gen := by simp only [hc]; exact Nat.le_trans hg L.gen
  calls := by simp only [hc, hq]; exact L.calls
  mult := hm.trans L.mult
  once := by
    intro t
    have := L.once t
    rw [cnt_perm hp, cnt_append] at this
    simp only [cnt_append, hc]; omega
  hand := by
    intro x hx
    exact L.hand x (hp.mem_iff.2 (by simp only at hx; simp [hx]))
  fresh := by intro t; simp only [hc]; exact L.fresh t
  orig := by
    intro x hx
    rw [hq]
    refine L.orig x ?_
    simp only [List.mem_append] at hx
    have := @List.Perm.mem_iff _ x _ _ hp
    simp only [List.mem_append] at this
    rcases hx with h1 | h1 | h1 | h1
    · exact .inl (this.2 (.inr h1))
    · exact .inr (.inl h1)
    · exact .inr (.inr h1)
    · exact .inl (this.2 (.inl h1))

theorem Ledger.tok_inj {mult : Nat} {h : List (QOp B)} {r : QRun Id B} (L : Ledger ops mult h r)
    (t : Nat) : cnt t r.s.q ≤ 1 := by
  have := L.once t; split at this <;> omega

theorem Ledger.tok_lt {mult : Nat} {h : List (QOp B)} {r : QRun Id B} (L : Ledger ops mult h r)
    {x : LB B} (hx : x ∈ r.s.q) : x.tok < r.s.calls := by
  have h1 := L.once x.tok
  have h2 := cnt_pos hx rfl
  split at h1 <;> omega

theorem Ledger.drain {mult : Nat} {h : List (QOp B)} {r : QRun Id B} (L : Ledger ops mult h r)
    {d : Drain Id B} {tl overhead limit : Nat} (h' : List (QOp B)) (hq : QOp.queued h' = QOp.queued h)
    (D : DrainOk ops r.s tl overhead limit d) :
    Ledger ops mult h' { s := d.s, handed := r.handed ++ d.sent, finished := r.finished ++ d.finished } := by
  obtain ⟨rest, p1, p2⟩ := D.split
  have hmem : ∀ x, x ∈ r.s.q ↔ x ∈ d.sent ∨ x ∈ rest := by
    intro x; rw [p1.mem_iff, List.mem_append]
  have hmem' : ∀ x, x ∈ d.s.q ↔ (∃ y ∈ d.sent, (!decide (tl ≤ y.transmits + 1)) = true ∧ bump y = x) ∨ x ∈ rest := by
    intro x
    rw [p2.mem_iff, List.mem_append, List.mem_map]
    simp only [List.mem_filter, and_assoc]
  constructor
  · exact D.inv
  · simp only [D.calls]; exact Nat.le_trans D.idGen L.gen
  · simp only [D.calls, hq]; exact L.calls
  · exact D.mult.trans L.mult
  · intro t
    have h1 := L.once t
    rw [cnt_perm p1, cnt_append, cnt_filter t (fun x => tl ≤ x.transmits + 1) d.sent] at h1
    simp only [cnt_append, cnt_perm p2, cnt_bump, D.fin, D.calls]
    omega
  · intro x hx
    simp only at hx ⊢
    rw [cnt_append]
    rcases (hmem' x).1 hx with ⟨y, hy, _, rfl⟩ | hx
    · have h1 := L.hand y ((hmem y).2 (.inl hy))
      have h2 := L.tok_inj y.tok
      have h3 := cnt_pos hy rfl
      rw [cnt_perm p1, cnt_append] at h2
      simp only [bump]; omega
    · have h1 := L.hand x ((hmem x).2 (.inr hx))
      have h2 := L.tok_inj x.tok
      have h3 := cnt_pos hx rfl
      rw [cnt_perm p1, cnt_append] at h2
      omega
  · intro t ht
    simp only [D.calls] at ht
    simp only [cnt_append, L.fresh t ht]
    have h1 := L.once t
    rw [if_neg (by omega), cnt_perm p1, cnt_append] at h1
    omega
  · intro x hx
    rw [hq]
    simp only [List.mem_append] at hx
    rcases hx with h1 | (h1 | h1) | h1 | h1
    · rcases (hmem' x).1 h1 with ⟨y, hy, _, rfl⟩ | h1
      · exact L.orig y (.inl ((hmem y).2 (.inl hy)))
      · exact L.orig x (.inl ((hmem x).2 (.inr h1)))
    · exact L.orig x (.inr (.inl h1))
    · exact L.orig x (.inl ((hmem x).2 (.inl h1)))
    · exact L.orig x (.inr (.inr h1))
    · rw [D.fin] at h1
      exact L.orig x (.inl ((hmem x).2 (.inl (List.mem_filter.1 h1).1)))

theorem Ledger.queue {mult : Nat} {h : List (QOp B)} {r : QRun Id B} (L : Ledger ops mult h r) (b : B)
    (hb : r.s.calls < U64_MAX) : Ledger ops mult (h ++ [.queue b]) (r.step ops (.queue b)) := by
  obtain ⟨hi, hc, hm, hg, lb, rest, p1, p2, e1, e2, e3, e4, e5⟩ :=
    L.inv.queueBroadcast b (Nat.lt_of_le_of_lt L.gen hb)
  have hqa := queued_append h (QOp.queue b)
  simp only at hqa
  constructor
  · exact hi
  · simp only [QRun.step, hc]; have := L.gen; omega
  · simp only [QRun.step, hc, hqa, List.length_append, List.length_singleton, L.calls]
  · exact hm.trans L.mult
  · intro t
    have h1 := L.once t
    rw [cnt_perm p2, cnt_append] at h1
    simp only [QRun.step, cnt_append, cnt_perm p1, cnt_cons, hc, e1]
    split at h1 <;> split <;> split <;> omega
  · intro x hx
    simp only [QRun.step] at hx ⊢
    rcases List.mem_cons.1 (p1.mem_iff.1 hx) with rfl | hx
    · rw [e1, e2]; exact L.fresh _ (Nat.le_refl _)
    · exact L.hand x (p2.mem_iff.2 (by simp [hx]))
  · intro t ht
    simp only [QRun.step, hc] at ht ⊢
    exact L.fresh t (by omega)
  · have key : ∀ x, x ∈ r.s.q ∨ x ∈ r.handed ∨ x ∈ r.finished →
        (QOp.queued (h ++ [QOp.queue b]))[x.tok]? = some x.broadcast := by
      intro x hx
      have := L.orig x hx
      rw [hqa, List.getElem?_append_left (List.getElem?_eq_some_iff.1 this).1]
      exact this
    intro x hx
    simp only [QRun.step, List.mem_append] at hx
    rcases hx with h1 | h1 | h1 | h1
    · rcases List.mem_cons.1 (p1.mem_iff.1 h1) with rfl | hx
      · rw [hqa, e1, L.calls, e3]; simp
      · exact key x (.inl (p2.mem_iff.2 (by simp [hx])))
    · exact key x (.inr (.inl h1))
    · exact key x (.inr (.inr h1))
    · exact key x (.inl (p2.mem_iff.2 (by simp [h1])))

theorem Ledger.step (hU : ∀ m, ops.encodedLen m ≤ U64_MAX) {mult : Nat} {h : List (QOp B)}
    {r : QRun Id B} (L : Ledger ops mult h r) (o : QOp B)
    (hb : (QOp.queued (h ++ [o])).length ≤ U64_MAX) :
    Ledger ops mult (h ++ [o]) (r.step ops o) := by
  have hqa := queued_append h o
  have hg : r.s.idGen ≤ U64_MAX := by
    have := L.gen; have h2 := L.calls
    rw [hqa, List.length_append] at hb; omega
  cases o with
  | queue b =>
    refine L.queue b ?_
    rw [hqa] at hb; simp only [List.length_append, List.length_singleton] at hb
    rw [L.calls]; omega
  | take n o l =>
    exact L.drain _ (by simpa using hqa) (takeMeasured_spec hU L.inv hg n o l).1
  | takeOne n l =>
    exact L.drain _ (by simpa using hqa) (takeOne_spec hU L.inv hg n l).1
  | prune k =>
    obtain ⟨a, b, c, d, e, _⟩ := prune_spec L.inv k
    exact L.drop _ (by simpa using hqa) a b c d e
  | reset =>
    obtain ⟨a, b, c, d⟩ := reset_spec L.inv
    exact L.drop _ (by simpa using hqa) a b c (by simp [reset]) d

theorem run_concat (mult : Nat) (h : List (QOp B)) (o : QOp B) :
    (QRun.run ops mult (h ++ [o]) : QRun Id B) = (QRun.run ops mult h).step ops o := by
  simp [QRun.run, List.foldl_append]

theorem queued_length_append_le (h : List (QOp B)) (o : QOp B) :
    (QOp.queued h).length ≤ (QOp.queued (h ++ [o])).length := by
  rw [queued_append, List.length_append]; omega

/-- Histories by their last call. -/
theorem snoc_induction {α : Type} {P : List α → Prop} (h0 : P []) (h1 : ∀ l a, P l → P (l ++ [a]))
    (l : List α) : P l := by
  have : ∀ l : List α, P l.reverse := by
    intro l
    induction l with
    | nil => exact h0
    | cons a l ih => rw [List.reverse_cons]; exact h1 _ a ih
  have := this l.reverse
  rwa [List.reverse_reverse] at this

theorem ledger (hU : ∀ m, ops.encodedLen m ≤ U64_MAX) (mult : Nat) (h : List (QOp B))
    (hb : (QOp.queued h).length ≤ U64_MAX) : Ledger ops mult h (QRun.run ops mult h) := by
  induction h using snoc_induction with
  | h0 => exact Ledger.start mult
  | h1 h o ih =>
    rw [run_concat]
    exact (ih (Nat.le_trans (queued_length_append_le h o) hb)).step hU o hb

/-- Bound on hand-outs when every drain used a limit of at most `L`. -/
structure Bounded (L : Nat) (r : QRun Id B) : Prop where
  queue : ∀ x ∈ r.s.q, x.transmits < max 1 L
  all : ∀ t, cnt t r.handed ≤ max 1 L

theorem sizes_append (h : List (QOp B)) (o : QOp B) :
    QOp.sizes (h ++ [o]) =
      QOp.sizes h ++ (match o with | .take n _ _ => [n] | .takeOne n _ => [n] | _ => []) := by
  simp only [QOp.sizes, List.filterMap_append]
  cases o <;> rfl

theorem Bounded.drain {mult : Nat} {h : List (QOp B)} {r : QRun Id B} (L : Ledger ops mult h r)
    {K : Nat} (Bd : Bounded K r) {d : Drain Id B} {tl overhead limit : Nat}
    (D : DrainOk ops r.s tl overhead limit d) (htl : tl ≤ K) :
    Bounded K { s := d.s, handed := r.handed ++ d.sent, finished := r.finished ++ d.finished : QRun Id B } := by
  obtain ⟨rest, p1, p2⟩ := D.split
  constructor
  · intro x hx
    have hx := p2.mem_iff.1 hx
    rw [List.mem_append, List.mem_map] at hx
    rcases hx with ⟨y, hy, rfl⟩ | hx
    · have h2 := (List.mem_filter.1 hy).2
      simp only [Bool.not_eq_true', decide_eq_false_iff_not] at h2
      simp only [bump]; omega
    · exact Bd.queue x (p1.mem_iff.2 (by simp [hx]))
  · intro t
    simp only [cnt_append]
    have h1 := Bd.all t
    have h2 := L.tok_inj t
    rw [cnt_perm p1, cnt_append] at h2
    rcases Nat.eq_zero_or_pos (cnt t d.sent) with h3 | h3
    · omega
    · obtain ⟨x, hx, rfl⟩ := exists_of_cnt h3
      have hx' : x ∈ r.s.q := p1.mem_iff.2 (by simp [hx])
      have h4 := L.hand x hx'
      have h5 := Bd.queue x hx'
      omega

theorem bounded (hU : ∀ m, ops.encodedLen m ≤ U64_MAX) (mult K : Nat) (h : List (QOp B))
    (hb : (QOp.queued h).length ≤ U64_MAX) (hK : ∀ n ∈ QOp.sizes h, retransmitLimit mult n ≤ K) :
    Bounded K (QRun.run ops mult h) := by
  induction h using snoc_induction with
  | h0 => exact ⟨by simp [QRun.run, QRun.start, new], by intro t; simp [QRun.run, QRun.start, cnt_nil]⟩
  | h1 h o ih =>
    have hb' := Nat.le_trans (queued_length_append_le h o) hb
    have L := ledger hU mult h hb'
    rw [sizes_append] at hK
    have Bd := ih hb' (fun n hn => hK n (by simp [hn]))
    rw [run_concat]
    have hg : (QRun.run ops mult h : QRun Id B).s.idGen ≤ U64_MAX := by
      have := L.gen; have h2 := L.calls; omega
    cases o with
    | queue b =>
      have hlt : (QRun.run ops mult h : QRun Id B).s.calls < U64_MAX := by
        rw [queued_append] at hb; simp only [List.length_append, List.length_singleton] at hb
        rw [L.calls]; omega
      obtain ⟨hi, hc, hm, hg, lb, rest, p1, p2, e1, e2, e3, e4, e5⟩ :=
        L.inv.queueBroadcast b (Nat.lt_of_le_of_lt L.gen hlt)
      refine ⟨?_, Bd.all⟩
      intro x hx
      rcases List.mem_cons.1 (p1.mem_iff.1 hx) with rfl | hx
      · rw [e2]; omega
      · exact Bd.queue x (p2.mem_iff.2 (by simp [hx]))
    | take n ov l =>
      refine Bd.drain L (takeMeasured_spec hU L.inv hg n ov l).1 ?_
      rw [L.mult]; exact hK n (by simp)
    | takeOne n l =>
      refine Bd.drain L (takeOne_spec hU L.inv hg n l).1 ?_
      rw [L.mult]; exact hK n (by simp)
    | prune k =>
      obtain ⟨a, b, c, d, e, _⟩ := prune_spec L.inv k
      exact ⟨fun x hx => Bd.queue x (e.mem_iff.2 (List.mem_append_right _ hx)), Bd.all⟩
    | reset =>
      exact ⟨fun x hx => by simp [QRun.step, reset] at hx, Bd.all⟩

end Verif
