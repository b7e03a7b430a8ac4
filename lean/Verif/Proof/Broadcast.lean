import Verif.Spec.Queue
import Verif.Proof.Map
/- Invariant and drain correctness of the broadcast queue. -/
namespace Verif
open Map Spec

namespace LB
variable {B : Type}

theorem before_iff (a b : LB B) : a.before b = true ↔ Preferred a b := by
  simp only [before, Preferred, Entry.transmits, Entry.size, Entry.stamp, Bool.or_eq_true,
    decide_eq_true_eq, Bool.and_eq_true, beq_iff_eq]

theorem sameKey_iff (a b : LB B) :
    a.sameKey b = true ↔ a.transmits = b.transmits ∧ a.msgLen = b.msgLen ∧ a.id = b.id := by
  simp only [sameKey, Bool.and_eq_true, beq_iff_eq, and_assoc]

theorem not_sameKey_of_before {a b : LB B} (h : a.before b = true) : a.sameKey b = false := by
  rw [Bool.eq_false_iff]; intro h2
  rw [sameKey_iff] at h2; rw [before_iff] at h
  simp only [Preferred, Entry.transmits, Entry.size, Entry.stamp] at h
  omega

theorem sameKey_symm (a b : LB B) : a.sameKey b = b.sameKey a := by
  rw [Bool.eq_iff_iff, sameKey_iff, sameKey_iff]; constructor <;> (rintro ⟨a, b, c⟩; exact ⟨a.symm, b.symm, c.symm⟩)

theorem before_trans {a b c : LB B} (h : a.before b = true) (h2 : b.before c = true) :
    a.before c = true := by
  rw [before_iff] at *
  simp only [Preferred, Entry.transmits, Entry.size, Entry.stamp] at *
  omega

theorem before_of_not {a b : LB B} (h1 : a.sameKey b = false) (h2 : a.before b = false) :
    b.before a = true := by
  rw [Bool.eq_false_iff, ne_eq, sameKey_iff] at h1
  rw [Bool.eq_false_iff, ne_eq, before_iff] at h2
  rw [before_iff]
  simp only [Preferred, Entry.transmits, Entry.size, Entry.stamp] at *
  omega

/-- Strictly ordered. -/
def Sorted (q : List (LB B)) : Prop := q.Pairwise (fun a b => a.before b = true)

theorem Sorted.eq_of_sameKey {q : List (LB B)} (h : Sorted q) {x y : LB B} (hx : x ∈ q) (hy : y ∈ q)
    (hk : x.sameKey y = true) : x = y := by
  induction q with
  | nil => simp at hx
  | cons a q ih =>
    obtain ⟨h1, h2⟩ := List.pairwise_cons.1 h
    rcases List.mem_cons.1 hx with e1 | hx' <;> rcases List.mem_cons.1 hy with e2 | hy'
    · rw [e1, e2]
    · subst e1; rw [not_sameKey_of_before (h1 y hy')] at hk; cases hk
    · subst e2; rw [sameKey_symm, not_sameKey_of_before (h1 x hx')] at hk; cases hk
    · exact ih h2 hx' hy'

theorem mem_setRemove {q : List (LB B)} (h : Sorted q) {x : LB B} (hx : x ∈ q) (y : LB B) :
    y ∈ setRemove q x ↔ y ∈ q ∧ y ≠ x := by
  simp only [setRemove, List.mem_filter, Bool.not_eq_true']
  constructor
  · rintro ⟨hy, hk⟩
    refine ⟨hy, ?_⟩
    rintro rfl
    have : y.sameKey y = true := by rw [sameKey_iff]; exact ⟨rfl, rfl, rfl⟩
    rw [this] at hk; cases hk
  · rintro ⟨hy, hne⟩
    refine ⟨hy, ?_⟩
    rw [Bool.eq_false_iff]
    intro hk
    exact hne (h.eq_of_sameKey hx hy hk).symm

theorem setRemove_perm {q : List (LB B)} (h : Sorted q) {x : LB B} (hx : x ∈ q) :
    q.Perm (x :: setRemove q x) := by
  induction q with
  | nil => simp at hx
  | cons a q ih =>
    obtain ⟨h1, h2⟩ := List.pairwise_cons.1 h
    have hself : ∀ x : LB B, x.sameKey x = true := fun x => (sameKey_iff _ _).2 ⟨rfl, rfl, rfl⟩
    rcases List.mem_cons.1 hx with rfl | hx
    · have : setRemove (x :: q) x = q := by
        simp only [setRemove, List.filter_cons, hself, Bool.not_true, Bool.false_eq_true, if_false]
        rw [List.filter_eq_self]
        intro y hy
        simp [not_sameKey_of_before (h1 y hy)]
      rw [this]
    · have hk : x.sameKey a = false := by
        rw [sameKey_symm]; exact not_sameKey_of_before (h1 x hx)
      have : setRemove (a :: q) x = a :: setRemove q x := by
        simp [setRemove, List.filter_cons, hk]
      rw [this]
      exact ((ih h2 hx).cons a).trans (List.Perm.swap x a _)

theorem Sorted.setRemove {q : List (LB B)} (h : Sorted q) (x : LB B) : Sorted (setRemove q x) :=
  List.Pairwise.sublist List.filter_sublist h

theorem setInsert_ok {q : List (LB B)} (h : Sorted q) {x : LB B}
    (hx : ∀ y ∈ q, x.sameKey y = false) :
    ∃ q', setInsert q x = (q', true) ∧ q'.Perm (x :: q) ∧ Sorted q' := by
  induction q with
  | nil => exact ⟨[x], rfl, List.Perm.refl _, List.pairwise_singleton _ _⟩
  | cons a q ih =>
    obtain ⟨h1, h2⟩ := List.pairwise_cons.1 h
    obtain ⟨q', e, hp, hs⟩ := ih h2 (fun y hy => hx y (by simp [hy]))
    have hxa := hx a (by simp)
    simp only [setInsert, hxa, Bool.false_eq_true, if_false]
    by_cases hb : x.before a = true
    · simp only [hb, if_true]
      refine ⟨_, rfl, List.Perm.refl _, ?_⟩
      refine List.pairwise_cons.2 ⟨?_, h⟩
      intro y hy
      rcases List.mem_cons.1 hy with rfl | hy
      · exact hb
      · exact before_trans hb (h1 y hy)
    · have hb' : x.before a = false := by simpa using hb
      simp only [hb', Bool.false_eq_true, if_false, e]
      refine ⟨_, rfl, (hp.cons a).trans (List.Perm.swap x a _), ?_⟩
      refine List.pairwise_cons.2 ⟨?_, hs⟩
      intro y hy
      rcases List.mem_cons.1 (hp.mem_iff.1 hy) with rfl | hy
      · exact before_of_not hxa hb'
      · exact h1 y hy

end LB

namespace BQueue
variable {Id B Msg : Type} [DecidableEq Id] {ops : BroadcastOps Id B Msg}
open LB

/-- The ordered set and the id index describe the same entries. -/
structure Inv (ops : BroadcastOps Id B Msg) (s : BQueue Id B) : Prop where
  sorted : Sorted s.q
  ids : (s.q.map LB.id).Nodup
  le : ∀ x ∈ s.q, x.id ≤ s.idGen
  mnd : NodupKeys s.m
  mq : ∀ i x, s.m.get? i = some x ↔ x ∈ s.q ∧ ops.id x.broadcast = some i
  len : ∀ x ∈ s.q, x.msgLen = ops.encodedLen (ops.message x.broadcast)

theorem inv_new (mult : Nat) : Inv ops (new mult : BQueue Id B) :=
  ⟨List.Pairwise.nil, by simp [new], by simp [new], nodup_nil, by simp [new], by simp [new]⟩

/-- Entries with the same broadcast id are the same entry. -/
theorem Inv.bid_inj {s : BQueue Id B} (h : Inv ops s) {x y : LB B} {i : Id} (hx : x ∈ s.q)
    (hy : y ∈ s.q) (hxi : ops.id x.broadcast = some i) (hyi : ops.id y.broadcast = some i) : x = y := by
  have h1 := (h.mq i x).2 ⟨hx, hxi⟩
  have h2 := (h.mq i y).2 ⟨hy, hyi⟩
  rw [h1] at h2; injection h2

theorem Inv.removeItem {s : BQueue Id B} (h : Inv ops s) {x : LB B} (hx : x ∈ s.q) :
    Inv ops (s.removeItem ops x) ∧ s.q.Perm (x :: (s.removeItem ops x).q) := by
  have hp := setRemove_perm h.sorted hx
  refine ⟨⟨h.sorted.setRemove x, ?_, ?_, ?_, ?_,
    fun y hy => h.len y ((mem_setRemove h.sorted hx y).1 hy).1⟩, hp⟩
  · exact List.Nodup.sublist (List.Sublist.map _ List.filter_sublist) h.ids
  · intro y hy; exact h.le y ((mem_setRemove h.sorted hx y).1 hy).1
  · simp only [BQueue.removeItem, dropIndex]; split
    · exact nodup_erase h.mnd _
    · exact h.mnd
  · intro i y
    simp only [BQueue.removeItem, dropIndex, mem_setRemove h.sorted hx]
    cases hb : ops.id x.broadcast with
    | none =>
      simp only [h.mq]
      constructor
      · rintro ⟨h1, h2⟩
        exact ⟨⟨h1, by rintro rfl; rw [hb] at h2; cases h2⟩, h2⟩
      · rintro ⟨⟨h1, _⟩, h2⟩; exact ⟨h1, h2⟩
    | some j =>
      simp only [get?_erase]
      by_cases hj : j = i
      · subst hj
        simp only [if_true, reduceCtorEq, false_iff]
        rintro ⟨⟨h1, h2⟩, h3⟩
        exact h2 (h.bid_inj h1 hx h3 hb)
      · simp only [hj, if_false, h.mq]
        constructor
        · rintro ⟨h1, h2⟩
          refine ⟨⟨h1, ?_⟩, h2⟩
          rintro rfl; rw [hb] at h2; injection h2 with h2; exact hj h2
        · rintro ⟨⟨h1, _⟩, h2⟩; exact ⟨h1, h2⟩

theorem Inv.insertInto {s : BQueue Id B} (h : Inv ops s) {x : LB B} (hid : x.id ∉ s.q.map LB.id)
    (hle : x.id ≤ s.idGen)
    (hb : ∀ i, ops.id x.broadcast = some i → ∀ y ∈ s.q, ops.id y.broadcast ≠ some i)
    (hlen : x.msgLen = ops.encodedLen (ops.message x.broadcast)) :
    Inv ops (s.insertInto ops x) ∧ (s.insertInto ops x).q.Perm (x :: s.q) ∧
      (s.insertInto ops x).idGen = s.idGen ∧ (s.insertInto ops x).calls = s.calls ∧
      (s.insertInto ops x).mult = s.mult := by
  have hk : ∀ y ∈ s.q, x.sameKey y = false := by
    intro y hy
    rw [Bool.eq_false_iff, ne_eq, sameKey_iff]
    rintro ⟨_, _, h3⟩
    exact hid (List.mem_map.2 ⟨y, hy, h3.symm⟩)
  obtain ⟨q', e, hp, hs⟩ := setInsert_ok h.sorted hk
  have hred : s.insertInto ops x = { s with q := q', m := addIndex ops s.m x } := by
    simp only [BQueue.insertInto, e, if_true]
  rw [hred]
  refine ⟨⟨hs, ?_, ?_, ?_, ?_, ?hl⟩, hp, rfl, rfl, rfl⟩
  case hl =>
    intro y hy
    rcases List.mem_cons.1 (hp.mem_iff.1 hy) with rfl | hy
    · exact hlen
    · exact h.len y hy
  · exact (hp.map LB.id).nodup_iff.2 (List.nodup_cons.2 ⟨hid, h.ids⟩)
  · intro y hy
    rcases List.mem_cons.1 (hp.mem_iff.1 hy) with rfl | hy
    · exact hle
    · exact h.le y hy
  · simp only [addIndex]; split
    · exact nodup_insert h.mnd _ _
    · exact h.mnd
  · intro i y
    simp only [hp.mem_iff, List.mem_cons, addIndex]
    cases hbx : ops.id x.broadcast with
    | none =>
      simp only [h.mq]
      constructor
      · rintro ⟨h1, h2⟩; exact ⟨.inr h1, h2⟩
      · rintro ⟨rfl | h1, h2⟩
        · rw [hbx] at h2; cases h2
        · exact ⟨h1, h2⟩
    | some j =>
      simp only [get?_insert]
      by_cases hj : j = i
      · subst hj
        simp only [if_true, Option.some.injEq]
        constructor
        · rintro rfl; exact ⟨.inl rfl, hbx⟩
        · rintro ⟨rfl | h1, h2⟩
          · rfl
          · exact absurd h2 (hb j hbx y h1)
      · simp only [hj, if_false, h.mq]
        constructor
        · rintro ⟨h1, h2⟩; exact ⟨.inr h1, h2⟩
        · rintro ⟨rfl | h1, h2⟩
          · rw [hbx] at h2; injection h2 with h2; exact absurd h2 hj
          · exact ⟨h1, h2⟩

theorem Inv.resetIdle {s : BQueue Id B} (h : Inv ops s) : Inv ops (resetIdle s) := by
  simp only [BQueue.resetIdle]
  split
  · rename_i he
    have : s.q = [] := by simpa using he
    exact ⟨h.sorted, h.ids, by simp [this], h.mnd, h.mq, h.len⟩
  · exact h

@[simp] theorem resetIdle_q (s : BQueue Id B) : (resetIdle s).q = s.q := by
  simp only [BQueue.resetIdle]; split <;> rfl
@[simp] theorem resetIdle_calls (s : BQueue Id B) : (resetIdle s).calls = s.calls := by
  simp only [BQueue.resetIdle]; split <;> rfl
@[simp] theorem resetIdle_mult (s : BQueue Id B) : (resetIdle s).mult = s.mult := by
  simp only [BQueue.resetIdle]; split <;> rfl
theorem resetIdle_idGen_le (s : BQueue Id B) : (resetIdle s).idGen ≤ s.idGen := by
  simp only [BQueue.resetIdle]; split <;> simp
@[simp] theorem removeItem_calls (s : BQueue Id B) (x : LB B) :
    (s.removeItem ops x).calls = s.calls := rfl
@[simp] theorem removeItem_mult (s : BQueue Id B) (x : LB B) :
    (s.removeItem ops x).mult = s.mult := rfl
@[simp] theorem removeItem_idGen (s : BQueue Id B) (x : LB B) :
    (s.removeItem ops x).idGen = s.idGen := rfl

/-- Removing a duplicate-free sublist of the queue. -/
theorem Inv.removeAll {s : BQueue Id B} (h : Inv ops s) (l : List (LB B)) (rest : List (LB B))
    (hl : s.q.Perm (l ++ rest)) :
    let s' := l.foldl (BQueue.removeItem ops) s
    Inv ops s' ∧ s'.q.Perm rest ∧ s'.calls = s.calls ∧ s'.mult = s.mult ∧ s'.idGen = s.idGen := by
  induction l generalizing s with
  | nil => exact ⟨h, hl, rfl, rfl, rfl⟩
  | cons x l ih =>
    have hx : x ∈ s.q := hl.mem_iff.2 (by simp)
    obtain ⟨h1, hp⟩ := h.removeItem hx
    have : (s.removeItem ops x).q.Perm (l ++ rest) := by
      have := hp.symm.trans hl
      exact List.Perm.cons_inv this
    have := ih h1 this
    simpa using this

theorem filter_perm {α : Type} (q : List α) (p : α → Bool) :
    q.Perm (q.filter p ++ q.filter (fun x => !p x)) := by
  exact (List.filter_append_perm p q).symm

/-- Invalidation: the notified broadcasts leave the queue, the others stay. -/
theorem Inv.invalidate {s : BQueue Id B} (h : Inv ops s) (b : B) :
    let r := s.invalidate ops b
    Inv ops r.1 ∧ s.q.Perm (r.2 ++ r.1.q) ∧ r.1.calls = s.calls ∧ r.1.mult = s.mult ∧
      r.1.idGen ≤ s.idGen ∧
      (∀ i, ops.id b = some i → ∀ y ∈ r.1.q, ops.id y.broadcast ≠ some i) ∧
      (∀ y, y ∈ r.2 ↔ y ∈ s.q ∧ (match ops.id b with
        | some i => ops.id y.broadcast = some i
        | none => ops.isUnique b = false ∧ ops.invalidates b y.broadcast = true)) := by
  simp only [BQueue.invalidate]
  cases hb : ops.id b with
  | some bid =>
    simp only
    cases hm : s.m.get? bid with
    | none =>
      refine ⟨h, by simp, rfl, rfl, Nat.le_refl _, ?_, ?_⟩
      · intro i hi y hy he
        injection hi with hi; subst hi
        have := (h.mq bid y).2 ⟨hy, he⟩
        rw [hm] at this; cases this
      · intro y
        simp only [List.not_mem_nil, false_iff]
        rintro ⟨hy, he⟩
        have := (h.mq bid y).2 ⟨hy, he⟩
        rw [hm] at this; cases this
    | some old =>
      obtain ⟨ho, hob⟩ := (h.mq bid old).1 hm
      obtain ⟨h1, hp⟩ := h.removeItem ho
      have hred : ({ s with m := s.m.erase bid, q := setRemove s.q old } : BQueue Id B) =
          s.removeItem ops old := by
        simp only [BQueue.removeItem, dropIndex, hob]
      simp only [hred]
      refine ⟨h1.resetIdle, by simpa using hp, by simp, by simp, ?_, ?_, ?_⟩
      · exact Nat.le_trans (resetIdle_idGen_le _) (Nat.le_refl _)
      · intro i hi y hy he
        injection hi with hi; subst hi
        rw [resetIdle_q] at hy
        obtain ⟨hy, hne⟩ := (mem_setRemove h.sorted ho y).1 hy
        exact hne (h.bid_inj hy ho he hob)
      · intro y
        simp only [List.mem_singleton]
        constructor
        · rintro rfl; exact ⟨ho, hob⟩
        · rintro ⟨hy, he⟩; exact h.bid_inj hy ho he hob
  | none =>
    simp only
    cases hu : ops.isUnique b with
    | true =>
      simp only [Bool.not_true, Bool.false_eq_true, if_false]
      exact ⟨h, by simp, trivial, trivial, Nat.le_refl _, by simp, by simp⟩
    | false =>
      simp only [Bool.not_false, if_true]
      obtain ⟨h1, hp, hc, hmu, hg⟩ := h.removeAll _ _ (filter_perm s.q (fun x => ops.invalidates b x.broadcast))
      refine ⟨h1.resetIdle, ?_, by simp [hc], by simp [hmu], ?_, by simp, ?_⟩
      · simp only [resetIdle_q]
        exact (filter_perm s.q _).trans (List.Perm.append_left _ hp.symm)
      · exact Nat.le_trans (resetIdle_idGen_le _) (Nat.le_of_eq hg)
      · intro y; simp

theorem Inv.queueBroadcast {s : BQueue Id B} (h : Inv ops s) (b : B) (hg : s.idGen < U64_MAX) :
    let r := s.queueBroadcast ops b
    Inv ops r.1 ∧ r.1.calls = s.calls + 1 ∧ r.1.mult = s.mult ∧ r.1.idGen ≤ s.idGen + 1 ∧
      ∃ lb rest, r.1.q.Perm (lb :: rest) ∧ s.q.Perm (r.2 ++ rest) ∧ lb.tok = s.calls ∧
        lb.transmits = 0 ∧ lb.broadcast = b ∧ lb.msgLen = ops.encodedLen (ops.message b) ∧
      (∀ y, y ∈ r.2 ↔ y ∈ s.q ∧ (match ops.id b with
        | some i => ops.id y.broadcast = some i
        | none => ops.isUnique b = false ∧ ops.invalidates b y.broadcast = true)) := by
  obtain ⟨h1, hp, hc, hmu, hgl, hbid, hiff⟩ := h.invalidate b
  simp only [BQueue.queueBroadcast]
  revert h1 hp hc hmu hgl hbid hiff
  generalize s.invalidate ops b = r
  obtain ⟨s1, fin⟩ := r
  intro h1 hp hc hmu hgl hbid hiff
  simp only at h1 hp hc hmu hgl hbid hiff ⊢
  have hnext : nextId s1.idGen = s1.idGen + 1 := by
    simp only [nextId]; rw [if_neg]; omega
  rw [hnext]
  have h2 : Inv ops { s1 with idGen := s1.idGen + 1, calls := s1.calls + 1 } :=
    ⟨h1.sorted, h1.ids, fun x hx => Nat.le_succ_of_le (h1.le x hx), h1.mnd, h1.mq, h1.len⟩
  obtain ⟨h3, hp3, hg3, hc3, hm3⟩ := h2.insertInto (x := LB.mk 0 (ops.encodedLen (ops.message b)) (s1.idGen + 1) b s1.calls) (by
        simp only [List.mem_map]
        rintro ⟨y, hy, he⟩
        have := h1.le y hy
        omega) (Nat.le_refl _) hbid rfl
  refine ⟨h3, by rw [hc3, hc], by rw [hm3, hmu], by rw [hg3]; simp only; omega, ?_⟩
  exact ⟨_, _, hp3, hp, hc, rfl, rfl, rfl, hiff⟩

/-- The candidate scan, spelled out. -/
theorem candidate_filter (x : LB B) (transmits fit : Nat) (hid : x.id ≤ U64_MAX)
    (hlen : x.msgLen ≤ U64_MAX) :
    (let geq : CmpKey := { transmits, msgLen := fit, id := U64_MAX }
     let lt : CmpKey := { transmits := transmits + 1, msgLen := U64_MAX, id := U64_MAX }
     (geq.cmp x ≠ .gt && lt.cmp x == .gt)) = true ↔
      x.transmits = transmits ∧ x.msgLen ≤ fit := by
  simp only [CmpKey.cmp, ne_eq, Bool.and_eq_true, decide_eq_true_eq, beq_iff_eq]
  rcases Nat.lt_trichotomy transmits x.transmits with h | h | h
  · have h1 : compare transmits x.transmits = .lt := Nat.compare_eq_lt.2 h
    rcases Nat.lt_trichotomy (transmits + 1) x.transmits with h' | h' | h'
    · have h2 : compare (transmits + 1) x.transmits = .lt := Nat.compare_eq_lt.2 h'
      simp [h1, h2]; omega
    · have h2 : compare (transmits + 1) x.transmits = .eq := Nat.compare_eq_eq.2 h'
      have h3 : ¬ (compare x.msgLen U64_MAX = .gt) := by
        rw [Nat.compare_eq_gt]; omega
      have h4 : ¬ (compare x.id U64_MAX = .gt) := by
        rw [Nat.compare_eq_gt]; omega
      simp only [h1, h2, Ordering.then]
      constructor
      · rintro ⟨_, hh⟩
        exfalso
        cases h5 : compare x.msgLen U64_MAX with
        | lt => rw [h5] at hh; simp at hh
        | eq => rw [h5] at hh; exact h4 hh
        | gt => exact h3 h5
      · omega
    · omega
  · subst h
    have h1 : compare x.transmits x.transmits = .eq := Nat.compare_eq_eq.2 rfl
    have h2 : compare (x.transmits + 1) x.transmits = .gt := Nat.compare_eq_gt.2 (by omega)
    have h4 : ¬ (compare x.id U64_MAX = .gt) := by
      rw [Nat.compare_eq_gt]; omega
    simp only [h1, h2, Ordering.then, and_true, true_and]
    cases h5 : compare x.msgLen fit with
    | lt => have := Nat.compare_eq_lt.1 h5; simp; omega
    | eq => have := Nat.compare_eq_eq.1 h5; simp [h4]; omega
    | gt => have := Nat.compare_eq_gt.1 h5; simp; omega
  · have h1 : compare transmits x.transmits = .gt := Nat.compare_eq_gt.2 h
    simp [h1]; omega

theorem candidate_spec {q : List (LB B)} (hs : Sorted q) (hid : ∀ x ∈ q, x.id ≤ U64_MAX)
    (hlen : ∀ x ∈ q, x.msgLen ≤ U64_MAX) (transmits fit : Nat) :
    match candidate q transmits fit with
    | some x => x ∈ q ∧ x.transmits = transmits ∧ x.msgLen ≤ fit ∧
        ∀ y ∈ q, y ≠ x → y.transmits = transmits → y.msgLen ≤ fit → x.before y = true
    | none => ∀ y ∈ q, y.transmits = transmits → fit < y.msgLen := by
  simp only [candidate]
  obtain ⟨p, hp⟩ : ∃ p : LB B → Bool, p = fun x => (decide
      (CmpKey.cmp { transmits, msgLen := fit, id := U64_MAX } x ≠ .gt) &&
      CmpKey.cmp { transmits := transmits + 1, msgLen := U64_MAX, id := U64_MAX } x == .gt) := ⟨_, rfl⟩
  have hcf : ∀ x ∈ q, p x = true ↔ x.transmits = transmits ∧ x.msgLen ≤ fit := by
    intro x hx; rw [hp]; exact candidate_filter x transmits fit (hid x hx) (hlen x hx)
  rw [← hp]
  cases hc : (q.filter p).find? (fun x => x.msgLen ≤ fit) with
  | none =>
    rw [List.find?_eq_none] at hc
    intro y hy ht
    rcases Nat.lt_or_ge fit y.msgLen with h | h
    · exact h
    · exfalso
      have := (hcf y hy).2 ⟨ht, h⟩
      exact hc y (List.mem_filter.2 ⟨hy, this⟩) (by simpa using h)
  | some x =>
    obtain ⟨hx, as, bs, he, hbefore⟩ := List.find?_eq_some_iff_append.1 hc
    have hmem : x ∈ q.filter p := by rw [he]; simp
    obtain ⟨hxq, hxf⟩ := List.mem_filter.1 hmem
    have hxf := (hcf x hxq).1 hxf
    refine ⟨hxq, hxf.1, hxf.2, ?_⟩
    intro y hy hne ht hl
    have hyf : y ∈ q.filter p := List.mem_filter.2
      ⟨hy, (hcf y hy).2 ⟨ht, hl⟩⟩
    rw [he] at hyf
    have hsf : Sorted (as ++ x :: bs) := by
      rw [← he]; exact List.Pairwise.sublist List.filter_sublist hs
    rcases List.mem_append.1 hyf with h | h
    · have := hbefore y h; simp [hl] at this
    · rcases List.mem_cons.1 h with rfl | h
      · exact absurd rfl hne
      · exact (List.pairwise_cons.1 (List.pairwise_append.1 hsf).2.1).1 y h

/-- An entry after one more transmission. -/
def bump (x : LB B) : LB B := { x with transmits := x.transmits + 1 }

/-- What the drain loop computes: a list of picks, greedy with respect to the queue. -/
theorem drainLoop_spec (hU : ∀ m, ops.encodedLen m ≤ U64_MAX) (tl overhead limit maxTr : Nat)
    (fuel transmits : Nat) (d : Drain Id B) (h : Inv ops d.s) (hg : d.s.idGen ≤ U64_MAX)
    (hused : d.used ≤ limit)
    (hlow : ∀ y ∈ d.s.q, y.transmits < transmits → limit < d.used + (y.msgLen + overhead))
    (hmax : ∀ y ∈ d.s.q, y.transmits ≤ maxTr)
    (hfuel : d.s.q.length + (maxTr + 1 - transmits) ≤ fuel) :
    ∃ picked rest,
      drainLoop ops tl overhead limit maxTr fuel transmits d =
        { s := picked.foldl (removeItem ops) d.s
          sent := d.sent ++ picked
          used := d.used + charge overhead picked
          reinsert := d.reinsert ++ (picked.filter (fun x => !(tl ≤ x.transmits + 1))).map bump
          finished := d.finished ++ picked.filter (fun x => tl ≤ x.transmits + 1) } ∧
      Greedy overhead limit d.s.q d.used picked ∧ d.s.q.Perm (picked ++ rest) := by
  induction fuel generalizing transmits d with
  | zero =>
    have hq : d.s.q = [] := List.eq_nil_of_length_eq_zero (by omega)
    refine ⟨[], [], by simp [drainLoop, charge], .stop (by simp [hq]), by simp [hq]⟩
  | succ fuel ih =>
    simp only [drainLoop]
    by_cases ht : transmits ≤ maxTr
    · simp only [ht, if_true]
      by_cases hfo : limit - d.used < overhead
      · simp only [hfo, if_true]
        refine ⟨[], d.s.q, by simp [charge], .stop ?_, by simp⟩
        intro y hy
        simp only [Entry.size]; omega
      · simp only [hfo, if_false]
        have hc := candidate_spec h.sorted (fun x hx => Nat.le_trans (h.le x hx) hg)
          (fun x hx => by rw [h.len x hx]; exact hU _) transmits (limit - d.used - overhead)
        cases hcand : candidate d.s.q transmits (limit - d.used - overhead) with
        | none =>
          rw [hcand] at hc
          simp only at hc ⊢
          refine ih (transmits + 1) d h hg hused ?_ hmax (by omega)
          intro y hy hlt
          rcases Nat.lt_or_ge y.transmits transmits with h1 | h1
          · exact hlow y hy h1
          · have := hc y hy (by omega); omega
        | some x =>
          rw [hcand] at hc
          simp only at hc ⊢
          obtain ⟨hx, hxt, hxl, hbest⟩ := hc
          obtain ⟨h1, hp⟩ := h.removeItem hx
          have hlen := hp.length_eq
          simp only [List.length_cons] at hlen
          have hmem : ∀ y, y ∈ (d.s.removeItem ops x).q ↔ y ∈ d.s.q ∧ y ≠ x :=
            mem_setRemove h.sorted hx
          have hfit : d.used + (x.msgLen + overhead) ≤ limit := by omega
          obtain ⟨picked, rest, e, hgr, hpp⟩ := ih transmits (drainPick ops tl overhead d x) h1 hg hfit
            (by
              intro y hy hlt
              have := hlow y ((hmem y).1 hy).1 hlt
              simp only [drainPick]; omega)
            (fun y hy => hmax y ((hmem y).1 hy).1)
            (by simp only [drainPick]; omega)
          refine ⟨x :: picked, rest, ?_, ?_, ?_⟩
          · rw [e]
            simp only [drainPick, List.foldl_cons, List.filter_cons, charge, List.map_cons,
              List.sum_cons, Entry.size]
            by_cases hfin : tl ≤ x.transmits + 1
            · simp [hfin, Nat.add_assoc]
            · simp [hfin, Nat.add_assoc, bump]
          · refine .pick hp (by simpa [Entry.size] using hfit) ?_ hgr
            intro y hy hyf
            obtain ⟨hyq, hyne⟩ := (hmem y).1 hy
            simp only [Entry.size] at hyf
            rcases Nat.lt_trichotomy y.transmits transmits with h2 | h2 | h2
            · have := hlow y hyq h2; omega
            · exact (before_iff _ _).1 (hbest y hyq hyne h2 (by omega))
            · left; simp only [Entry.transmits]; omega
          · exact hp.trans (hpp.cons x)
    · simp only [ht, if_false]
      refine ⟨[], d.s.q, by simp [charge], .stop ?_, by simp⟩
      intro y hy
      simp only [Entry.size]
      exact hlow y hy (by have := hmax y hy; omega)

theorem transmitRange_spec {q : List (LB B)} (hs : Sorted q) (hne : q ≠ []) :
    ∀ y ∈ q, (transmitRange q).1 ≤ y.transmits ∧ y.transmits ≤ (transmitRange q).2 := by
  cases q with
  | nil => exact absurd rfl hne
  | cons a q =>
    intro y hy
    have hle : ∀ (a b : LB B), a.before b = true → a.transmits ≤ b.transmits := by
      intro a b h; rw [before_iff] at h
      simp only [Preferred, Entry.transmits, Entry.size, Entry.stamp] at h; omega
    have hl : (a :: q).getLast? = some ((a :: q).getLast (by simp)) := List.getLast?_eq_some_getLast _
    simp only [transmitRange, List.head?_cons, hl]
    constructor
    · rcases List.mem_cons.1 hy with rfl | hy
      · exact Nat.le_refl _
      · exact hle _ _ ((List.pairwise_cons.1 hs).1 y hy)
    · have hd : (a :: q) = (a :: q).dropLast ++ [(a :: q).getLast (by simp)] :=
        (List.dropLast_concat_getLast _).symm
      rw [hd] at hy
      have hs' : Sorted ((a :: q).dropLast ++ [(a :: q).getLast (by simp)]) := by
        rw [← hd]; exact hs
      rcases List.mem_append.1 hy with hy | hy
      · exact hle _ _ ((List.pairwise_append.1 hs').2.2 y hy _ (by simp))
      · simp at hy; rw [hy]; exact Nat.le_refl _

/-- Putting bumped entries back. -/
theorem Inv.reinsert {s : BQueue Id B} (h : Inv ops s) (l : List (LB B))
    (hids : ((l ++ s.q).map LB.id).Nodup) (hle : ∀ x ∈ l, x.id ≤ s.idGen)
    (hb : ((l ++ s.q).filterMap (fun x => ops.id x.broadcast)).Nodup)
    (hlen : ∀ x ∈ l, x.msgLen = ops.encodedLen (ops.message x.broadcast)) :
    let s' := l.foldl (BQueue.insertInto ops) s
    Inv ops s' ∧ s'.q.Perm (l ++ s.q) ∧ s'.calls = s.calls ∧ s'.mult = s.mult ∧ s'.idGen = s.idGen := by
  induction l generalizing s with
  | nil => exact ⟨h, by simp, rfl, rfl, rfl⟩
  | cons x l ih =>
    simp only [List.cons_append, List.map_cons, List.nodup_cons] at hids
    have hxid : x.id ∉ s.q.map LB.id := by
      intro hm; exact hids.1 (by rw [List.map_append]; exact List.mem_append_right _ hm)
    have hxb : ∀ i, ops.id x.broadcast = some i → ∀ y ∈ s.q, ops.id y.broadcast ≠ some i := by
      intro i hi y hy he
      simp only [List.cons_append, List.filterMap_cons, hi, List.nodup_cons] at hb
      exact hb.1 (List.mem_filterMap.2 ⟨y, by simp [hy], he⟩)
    obtain ⟨h1, hp, hg, hc, hm⟩ := h.insertInto hxid (hle x (by simp)) hxb (hlen x (by simp))
    have hperm : (l ++ (s.insertInto ops x).q).Perm (x :: (l ++ s.q)) :=
      (List.Perm.append_left l hp).trans List.perm_middle
    obtain ⟨h2, hp2, hc2, hm2, hg2⟩ := ih (s := s.insertInto ops x) h1
      ((hperm.map LB.id).nodup_iff.2 (by simpa using hids))
      (fun y hy => by rw [hg]; exact hle y (by simp [hy]))
      ((hperm.filterMap _).nodup_iff.2 (by simpa using hb))
      (fun y hy => hlen y (by simp [hy]))
    refine ⟨h2, ?_, by simp [hc2, hc], by simp [hm2, hm], by simp [hg2, hg]⟩
    exact hp2.trans hperm

theorem nodup_bids {s : BQueue Id B} (h : Inv ops s) :
    (s.q.filterMap (fun x => ops.id x.broadcast)).Nodup := by
  have hq : s.q.Nodup := by
    have := h.ids; rw [List.Nodup, List.pairwise_map] at this
    exact this.imp (fun hne he => hne (by rw [he]))
  rw [List.Nodup, List.pairwise_filterMap]
  refine List.Pairwise.imp_of_mem ?_ hq
  intro a b ha hb hne i hi j hj he
  subst he
  exact hne (h.bid_inj ha hb (by simpa using hi) (by simpa using hj))

/-- What a drain does to the queue. -/
structure DrainOk (ops : BroadcastOps Id B Msg) (s : BQueue Id B) (tl overhead limit : Nat)
    (d : Drain Id B) : Prop where
  inv : Inv ops d.s
  calls : d.s.calls = s.calls
  mult : d.s.mult = s.mult
  idGen : d.s.idGen ≤ s.idGen
  used : d.used = charge overhead d.sent
  bound : d.used ≤ limit
  fin : d.finished = d.sent.filter (fun x => tl ≤ x.transmits + 1)
  split : ∃ rest, s.q.Perm (d.sent ++ rest) ∧
    d.s.q.Perm ((d.sent.filter (fun x => !(tl ≤ x.transmits + 1))).map bump ++ rest)

theorem greedy_bound {overhead limit : Nat} {q out : List (LB B)} {used : Nat} (hu : used ≤ limit)
    (h : Greedy overhead limit q used out) : used + charge overhead out ≤ limit := by
  induction h with
  | stop _ => simpa [charge] using hu
  | pick hq hfit hbest hrest ih =>
    have := ih hfit
    simp only [charge, List.map_cons, List.sum_cons] at this ⊢
    omega

theorem takeMeasured_spec (hU : ∀ m, ops.encodedLen m ≤ U64_MAX) {s : BQueue Id B} (h : Inv ops s)
    (hg : s.idGen ≤ U64_MAX) (n overhead limit : Nat) :
    let d := s.takeMeasured ops n overhead limit
    DrainOk ops s (retransmitLimit s.mult n) overhead limit d ∧
      Greedy overhead limit s.q 0 d.sent := by
  simp only [takeMeasured]
  by_cases he : s.q.isEmpty = true
  · have hq : s.q = [] := by simpa using he
    simp only [he, if_true]
    exact ⟨⟨h, rfl, rfl, Nat.le_refl _, by simp [charge], Nat.zero_le _, rfl, [], by simp [hq], by simp [hq]⟩,
      .stop (by simp [hq])⟩
  · have hne : s.q ≠ [] := by simpa using he
    simp only [he]
    have hr := transmitRange_spec h.sorted hne
    obtain ⟨picked, rest, e, hgr, hp⟩ := drainLoop_spec hU (retransmitLimit s.mult n) overhead limit
      (transmitRange s.q).2 (s.q.length + ((transmitRange s.q).2 + 1 - (transmitRange s.q).1))
      (transmitRange s.q).1 { s, sent := [], used := 0, reinsert := [], finished := [] } h hg
      (Nat.zero_le _) (by intro y hy hlt; have := (hr y hy).1; omega) (fun y hy => (hr y hy).2)
      (Nat.le_refl _)
    simp only [Bool.false_eq_true, if_false, e, List.nil_append, Nat.zero_add]
    simp only at hgr hp
    obtain ⟨h1, hp1, hc1, hm1, hg1⟩ := h.removeAll picked rest hp
    have hids : ((picked ++ rest).map LB.id).Nodup := (hp.map _).nodup_iff.1 h.ids
    have hbids : ((picked ++ rest).filterMap (fun x => ops.id x.broadcast)).Nodup :=
      (hp.filterMap _).nodup_iff.1 (nodup_bids h)
    have hpin : ∀ x ∈ picked, x ∈ s.q := fun x hx => hp.mem_iff.2 (by simp [hx])
    obtain ⟨h2, hp2, hc2, hm2, hg2⟩ := h1.reinsert
      ((picked.filter (fun x => !(retransmitLimit s.mult n ≤ x.transmits + 1))).map bump)
      (by
        rw [List.map_append, List.map_map]
        have hb : (LB.id ∘ bump : LB B → Nat) = LB.id := rfl
        rw [hb]
        refine List.Nodup.sublist (l₂ := (picked ++ (picked.foldl (removeItem ops) s).q).map LB.id) ?_
          (((List.Perm.append_left picked hp1).map LB.id).nodup_iff.2 hids)
        rw [List.map_append]
        exact List.Sublist.append (List.filter_sublist.map _) (List.Sublist.refl _))
      (by
        intro x hx
        obtain ⟨y, hy, rfl⟩ := List.mem_map.1 hx
        rw [hg1]
        exact h.le y (hpin y (List.mem_filter.1 hy).1))
      (by
        rw [List.filterMap_append, List.filterMap_map]
        have hb : ((fun x : LB B => ops.id x.broadcast) ∘ bump) = fun x => ops.id x.broadcast := rfl
        rw [hb]
        refine List.Nodup.sublist
          (l₂ := (picked ++ (picked.foldl (removeItem ops) s).q).filterMap (fun x => ops.id x.broadcast)) ?_
          (((List.Perm.append_left picked hp1).filterMap _).nodup_iff.2 hbids)
        rw [List.filterMap_append]
        exact List.Sublist.append (List.filter_sublist.filterMap _) (List.Sublist.refl _))
      (by
        intro x hx
        obtain ⟨y, hy, rfl⟩ := List.mem_map.1 hx
        exact h.len y (hpin y (List.mem_filter.1 hy).1))
    refine ⟨⟨h2.resetIdle, by simp [hc2, hc1], by simp [hm2, hm1], ?_, rfl, ?_, rfl, rest, hp, ?_⟩, hgr⟩
    · exact Nat.le_trans (resetIdle_idGen_le _) (by rw [hg2, hg1]; exact Nat.le_refl _)
    · have := greedy_bound (Nat.zero_le _) hgr; simp only; omega
    · rw [resetIdle_q]
      exact hp2.trans (List.Perm.append_left _ hp1)

theorem oneLoop_spec {q : List (LB B)} (hs : Sorted q) (hid : ∀ x ∈ q, x.id ≤ U64_MAX)
    (hlen : ∀ x ∈ q, x.msgLen ≤ U64_MAX) (limit maxTr fuel transmits : Nat)
    (hlow : ∀ y ∈ q, y.transmits < transmits → limit < y.msgLen)
    (hmax : ∀ y ∈ q, y.transmits ≤ maxTr) (hfuel : fuel = maxTr + 1 - transmits) :
    match oneLoop q limit fuel transmits with
    | some x => x ∈ q ∧ x.msgLen ≤ limit ∧ ∀ y ∈ q, y ≠ x → y.msgLen ≤ limit → x.before y = true
    | none => ∀ y ∈ q, limit < y.msgLen := by
  induction fuel generalizing transmits with
  | zero =>
    simp only [oneLoop]
    intro y hy
    exact hlow y hy (by have := hmax y hy; omega)
  | succ fuel ih =>
    simp only [oneLoop]
    have hc := candidate_spec hs hid hlen transmits limit
    cases hcand : candidate q transmits limit with
    | none =>
      rw [hcand] at hc
      simp only at hc ⊢
      refine ih (transmits + 1) ?_ (by omega)
      intro y hy hlt
      rcases Nat.lt_or_ge y.transmits transmits with h1 | h1
      · exact hlow y hy h1
      · exact hc y hy (by omega)
    | some x =>
      rw [hcand] at hc
      simp only at hc ⊢
      refine ⟨hc.1, hc.2.2.1, ?_⟩
      intro y hy hne hyl
      rcases Nat.lt_trichotomy y.transmits transmits with h2 | h2 | h2
      · have := hlow y hy h2; omega
      · exact hc.2.2.2 y hy hne h2 hyl
      · rw [before_iff]; left; simp only [Entry.transmits]; omega

theorem takeOne_spec (hU : ∀ m, ops.encodedLen m ≤ U64_MAX) {s : BQueue Id B} (h : Inv ops s)
    (hg : s.idGen ≤ U64_MAX) (n limit : Nat) :
    let d := s.takeOne ops n limit
    DrainOk ops s (retransmitLimit s.mult n) 0 limit d ∧
      ((d.sent = [] ∧ ∀ y ∈ s.q, limit < y.msgLen) ∨
        ∃ x, d.sent = [x] ∧ x ∈ s.q ∧ x.msgLen ≤ limit ∧
          ∀ y ∈ s.q, y ≠ x → y.msgLen ≤ limit → Preferred x y) := by
  simp only [takeOne]
  by_cases he : s.q.isEmpty = true
  · have hq : s.q = [] := by simpa using he
    simp only [he, if_true]
    exact ⟨⟨h, rfl, rfl, Nat.le_refl _, by simp [charge], Nat.zero_le _, rfl, [], by simp [hq], by simp [hq]⟩,
      .inl ⟨trivial, by simp [hq]⟩⟩
  · have hne : s.q ≠ [] := by simpa using he
    simp only [he]
    have hr := transmitRange_spec h.sorted hne
    have hone := oneLoop_spec h.sorted (fun x hx => Nat.le_trans (h.le x hx) hg)
      (fun x hx => by rw [h.len x hx]; exact hU _) limit (transmitRange s.q).2
      ((transmitRange s.q).2 + 1 - (transmitRange s.q).1) (transmitRange s.q).1
      (by intro y hy hlt; have := (hr y hy).1; omega) (fun y hy => (hr y hy).2) rfl
    cases ho : oneLoop s.q limit ((transmitRange s.q).2 + 1 - (transmitRange s.q).1)
        (transmitRange s.q).1 with
    | none =>
      rw [ho] at hone
      simp only at hone
      simp only [Bool.false_eq_true, if_false]
      exact ⟨⟨h, rfl, rfl, Nat.le_refl _, by simp [charge], Nat.zero_le _, rfl, s.q, by simp, by simp⟩,
        .inl ⟨trivial, hone⟩⟩
    | some x =>
      rw [ho] at hone
      simp only at hone
      obtain ⟨hx, hxl, hbest⟩ := hone
      obtain ⟨h1, hp⟩ := h.removeItem hx
      simp only [Bool.false_eq_true, if_false, ge_iff_le]
      by_cases hfin : retransmitLimit s.mult n ≤ x.transmits + 1
      · simp only [hfin, if_true]
        refine ⟨⟨h1.resetIdle, by simp, by simp, ?_, by simp [charge, Entry.size], hxl, by simp [hfin],
          (s.removeItem ops x).q, hp, by simp [hfin]⟩, .inr ⟨x, rfl, hx, hxl, ?_⟩⟩
        · exact Nat.le_trans (resetIdle_idGen_le _) (Nat.le_refl _)
        · intro y hy hne hl; exact (before_iff _ _).1 (hbest y hy hne hl)
      · simp only [hfin, if_false]
        have hids := (hp.map LB.id).nodup_iff.1 h.ids
        simp only [List.map_cons, List.nodup_cons] at hids
        obtain ⟨h2, hp2, hg2, hc2, hm2⟩ := h1.insertInto (x := bump x) hids.1 (h.le x hx)
          (by
            intro i hi y hy he
            obtain ⟨hy1, hy2⟩ := (mem_setRemove h.sorted hx y).1 hy
            exact hy2 (h.bid_inj hy1 hx he hi))
          (h.len x hx)
        refine ⟨⟨h2.resetIdle, ?_, ?_, ?_, by simp [charge, Entry.size], hxl, by simp [hfin],
          (s.removeItem ops x).q, hp, ?_⟩, .inr ⟨x, rfl, hx, hxl, ?_⟩⟩
        · rw [resetIdle_calls]; exact hc2
        · rw [resetIdle_mult]; exact hm2
        · refine Nat.le_trans (resetIdle_idGen_le _) (Nat.le_of_eq hg2)
        · rw [resetIdle_q]; simp only [hfin, decide_false, Bool.not_false, List.filter_cons, if_true, List.filter_nil, List.map_cons, List.map_nil, List.singleton_append]; exact hp2
        · intro y hy hne hl; exact (before_iff _ _).1 (hbest y hy hne hl)

theorem removeLast {s : BQueue Id B} (h : Inv ops s) {x : LB B} (hl : s.q.getLast? = some x) :
    ({ s with q := s.q.dropLast, m := dropIndex ops s.m x } : BQueue Id B) = s.removeItem ops x := by
  have hq : s.q = s.q.dropLast ++ [x] := by
    obtain ⟨ys, hy⟩ := List.getLast?_eq_some_iff.1 hl
    rw [hy]; simp
  have : s.q.dropLast = setRemove s.q x := by
    have hs := h.sorted
    rw [hq] at hs
    refine Eq.trans ?_ (congrArg (fun l => setRemove l x) hq.symm)
    have hself : x.sameKey x = true := (sameKey_iff _ _).2 ⟨rfl, rfl, rfl⟩
    simp only [setRemove, List.filter_append, List.filter_cons, hself, Bool.not_true,
      Bool.false_eq_true, if_false, List.filter_nil, List.append_nil]
    symm
    rw [List.filter_eq_self]
    intro y hy
    have := (List.pairwise_append.1 hs).2.2 y hy x (by simp)
    rw [sameKey_symm, not_sameKey_of_before this]; rfl
  simp only [removeItem, this]

theorem pruneLoop_spec (n : Nat) {s : BQueue Id B} (h : Inv ops s) (fin : List (LB B))
    (hn : n ≤ s.q.length) :
    let r := pruneLoop ops n s fin
    Inv ops r.1 ∧ r.1.calls = s.calls ∧ r.1.mult = s.mult ∧ r.1.idGen = s.idGen ∧
      ∃ out, r.2 = fin ++ out ∧ s.q.Perm (out ++ r.1.q) ∧ r.1.q.length = s.q.length - n ∧
        r.1.q = s.q.take (s.q.length - n) := by
  induction n generalizing s fin with
  | zero => exact ⟨h, rfl, rfl, rfl, [], by simp [pruneLoop], by simp [pruneLoop], rfl, by simp [pruneLoop]⟩
  | succ n ih =>
    simp only [pruneLoop]
    have hne : s.q ≠ [] := by intro he; rw [he] at hn; simp at hn
    have hl : s.q.getLast? = some (s.q.getLast hne) := List.getLast?_eq_some_getLast _
    simp only [hl, removeLast h hl]
    obtain ⟨h1, hp⟩ := h.removeItem (x := s.q.getLast hne) (List.getLast_mem hne)
    have hlen := hp.length_eq
    simp only [List.length_cons] at hlen
    have hdrop : (s.removeItem ops (s.q.getLast hne)).q = s.q.dropLast := by
      rw [← removeLast h hl]
    obtain ⟨a, b, c, d, out, e1, e2, e3, e4⟩ := ih h1 (fin ++ [s.q.getLast hne]) (by omega)
    refine ⟨a, b, c, d, s.q.getLast hne :: out, by rw [e1]; simp, hp.trans (by simpa using e2), by rw [e3]; omega, ?_⟩
    rw [e4, hdrop, List.dropLast_eq_take, List.take_take, List.length_take]
    congr 1; omega

theorem prune_spec {s : BQueue Id B} (h : Inv ops s) (k : Nat) :
    let r := s.prune ops k
    Inv ops r.1 ∧ r.1.calls = s.calls ∧ r.1.mult = s.mult ∧ r.1.idGen ≤ s.idGen ∧
      s.q.Perm (r.2 ++ r.1.q) ∧ r.1.q = s.q.take k := by
  obtain ⟨a, b, c, d, out, e1, e2, e3, e4⟩ := pruneLoop_spec (s.q.length - k) h [] (by omega)
  simp only [prune]
  revert a b c d e1 e2 e3 e4
  generalize pruneLoop ops (s.q.length - k) s [] = r
  intro a b c d e1 e2 e3 e4
  simp only [List.nil_append] at e1
  subst e1
  refine ⟨a.resetIdle, by simp [b], by simp [c], Nat.le_trans (resetIdle_idGen_le _) (Nat.le_of_eq d),
    by simpa using e2, ?_⟩
  simp only [resetIdle_q]
  rw [e4]
  rcases Nat.lt_or_ge k s.q.length with hk | hk
  · congr 1; omega
  · rw [List.take_of_length_le (by omega), List.take_of_length_le (by omega)]

theorem reset_spec {s : BQueue Id B} (_ : Inv ops s) :
    Inv ops s.reset.1 ∧ s.reset.1.calls = s.calls ∧ s.reset.1.mult = s.mult ∧
      s.q.Perm (s.reset.2 ++ s.reset.1.q) :=
  ⟨⟨List.Pairwise.nil, by simp [reset], by simp [reset], nodup_nil, by simp [reset], by simp [reset]⟩,
    rfl, rfl, by simp [reset]⟩

end BQueue
end Verif
