import Verif.Proof.UserBroadcast
import Verif.Proof.Sends
import Verif.Spec.Gossip
/-
The application's broadcasts inside the endpoint: the ranks stay well formed, and what a drain takes out.
-/
namespace Verif
open Spec Map BQueue

namespace BQueue
variable {Id B Msg : Type} [DecidableEq Id] {ops : BroadcastOps Id B Msg}

/-- The number of calls and the multiplier, which no drain changes. -/
def consts (s : BQueue Id B) : Nat × Nat := (s.calls, s.mult)

theorem insertInto_consts (s : BQueue Id B) (x : LB B) : (s.insertInto ops x).consts = s.consts := by
  unfold insertInto; dsimp only; split <;> rfl

theorem resetIdle_consts (s : BQueue Id B) : s.resetIdle.consts = s.consts := by
  unfold resetIdle; split <;> rfl

theorem fold_insert_consts (l : List (LB B)) (s : BQueue Id B) : (l.foldl (insertInto ops) s).consts = s.consts := by
  induction l generalizing s with
  | nil => rfl
  | cons x l ih => rw [List.foldl_cons, ih, insertInto_consts]

theorem fold_remove_consts (l : List (LB B)) (s : BQueue Id B) : (l.foldl (removeItem ops) s).consts = s.consts := by
  induction l generalizing s with
  | nil => rfl
  | cons x l ih => rw [List.foldl_cons, ih]; rfl

theorem drainLoop_consts (tl o l mx fuel tr : Nat) (d : Drain Id B) :
    (drainLoop ops tl o l mx fuel tr d).s.consts = d.s.consts := by
  induction fuel generalizing tr d with
  | zero => rfl
  | succ n ih =>
    unfold drainLoop
    split
    · dsimp only
      split
      · rfl
      · split
        · rw [ih]; rfl
        · rw [ih]
    · rfl

theorem takeMeasured_consts (s : BQueue Id B) (n o l : Nat) : (s.takeMeasured ops n o l).s.consts = s.consts := by
  unfold takeMeasured
  split
  · rfl
  · dsimp only
    rw [resetIdle_consts, fold_insert_consts, drainLoop_consts]

theorem takeOne_consts (s : BQueue Id B) (n l : Nat) : (s.takeOne ops n l).s.consts = s.consts := by
  unfold takeOne
  split
  · rfl
  · dsimp only
    split
    · rfl
    · split
      · rw [resetIdle_consts]; rfl
      · rw [resetIdle_consts, insertInto_consts]; rfl

theorem queueBroadcast_consts (s : BQueue Id B) (b : B) :
    (s.queueBroadcast ops b).1.calls = s.calls + 1 ∧ (s.queueBroadcast ops b).1.mult = s.mult := by
  have hi : (s.invalidate ops b).1.consts = s.consts := by
    unfold invalidate
    split
    · split
      · rw [resetIdle_consts]; rfl
      · rfl
    · split
      · rw [resetIdle_consts, fold_remove_consts]
      · rfl
  have h2 : ∀ (q : BQueue Id B) x, (q.insertInto ops x).consts = q.consts := fun q x => insertInto_consts q x
  simp only [consts, Prod.mk.injEq] at hi h2
  unfold queueBroadcast
  dsimp only
  exact ⟨by rw [(h2 _ _).1]; show _ + 1 = _; rw [hi.1], by rw [(h2 _ _).2]; exact hi.2⟩

/-- A well-formed rank, as long as the numbering of its entries has not wrapped. -/
def Fine (ops : BroadcastOps Id B Msg) (mult : Nat) (t : BQueue Id B) : Prop :=
  t.mult = mult ∧ (t.calls ≤ U64_MAX → Inv ops t ∧ t.idGen ≤ t.calls)

theorem Fine.new (mult : Nat) : (BQueue.new mult : BQueue Id B).Fine ops mult :=
  ⟨rfl, fun _ => ⟨inv_new mult, Nat.le_refl _⟩⟩

theorem Fine.reset {mult : Nat} {t : BQueue Id B} (h : t.Fine ops mult) : t.reset.1.Fine ops mult :=
  ⟨h.1, fun hc => ⟨(reset_spec (h.2 hc).1).1, Nat.zero_le _⟩⟩

theorem Fine.queue {mult : Nat} {t : BQueue Id B} (h : t.Fine ops mult) (b : B) :
    (t.queueBroadcast ops b).1.Fine ops mult := by
  obtain ⟨h1, h2⟩ := queueBroadcast_consts (ops := ops) t b
  refine ⟨by rw [h2]; exact h.1, fun hc => ?_⟩
  rw [h1] at hc
  obtain ⟨hi, hg⟩ := h.2 (by omega)
  obtain ⟨a, c, _, d, _⟩ := hi.queueBroadcast b (by omega)
  exact ⟨a, by rw [c]; omega⟩

theorem Fine.take {mult : Nat} {t : BQueue Id B} (hU : ∀ m, ops.encodedLen m ≤ U64_MAX) (h : t.Fine ops mult)
    (n o l : Nat) : (t.takeMeasured ops n o l).s.Fine ops mult := by
  have hc := takeMeasured_consts (ops := ops) t n o l
  simp only [consts, Prod.mk.injEq] at hc
  refine ⟨by rw [hc.2]; exact h.1, fun hk => ?_⟩
  rw [hc.1] at hk
  obtain ⟨hi, hg⟩ := h.2 hk
  have D := (takeMeasured_spec hU hi (by omega) n o l).1
  exact ⟨D.inv, by have := D.idGen; rw [hc.1]; omega⟩

end BQueue

namespace UserBroadcasts
variable {Id B Msg : Type} [DecidableEq Id] {ops : BroadcastOps Id B Msg}

/-- All ranks are there and well formed. -/
def Fine (ops : BroadcastOps Id B Msg) (n mult : Nat) (u : UserBroadcasts Id B) : Prop :=
  u.tiers.length = n ∧ ∀ t ∈ u.tiers, BQueue.Fine ops mult t

theorem Fine.new (n mult : Nat) : (UserBroadcasts.new n mult : UserBroadcasts Id B).Fine ops n mult := by
  refine ⟨by simp [UserBroadcasts.new], fun t ht => ?_⟩
  rw [UserBroadcasts.new, List.mem_replicate] at ht
  rw [ht.2]; exact .new mult

theorem Fine.reset {n mult : Nat} {u : UserBroadcasts Id B} (h : u.Fine ops n mult) : u.reset.1.Fine ops n mult := by
  refine ⟨by simpa [UserBroadcasts.reset] using h.1, fun t ht => ?_⟩
  obtain ⟨t', h', rfl⟩ := List.mem_map.1 ht
  exact (h.2 t' h').reset

theorem Fine.queue {n mult : Nat} {u u' : UserBroadcasts Id B} (h : u.Fine ops n mult) {rank : Nat} {b : B}
    {fin : List (LB B)} (hq : u.queueRanked ops rank b = some (u', fin)) : u'.Fine ops n mult := by
  unfold queueRanked at hq
  dsimp only at hq
  split at hq
  · cases hq
  · rename_i t ht
    cases hq
    refine ⟨by simpa using h.1, fun x hx => ?_⟩
    rcases List.mem_or_eq_of_mem_set hx with hx | hx
    · exact h.2 x hx
    · rw [hx]; exact (h.2 t (List.mem_of_getElem? ht)).queue b

theorem takeLoop_fine {mult : Nat} (hU : ∀ m, ops.encodedLen m ≤ U64_MAX) (n o l : Nat) (ts : List (BQueue Id B)) (used : Nat)
    (h : ∀ t ∈ ts, BQueue.Fine ops mult t) :
    (takeLoop ops n o l ts used).1.length = ts.length ∧ ∀ t ∈ (takeLoop ops n o l ts used).1, BQueue.Fine ops mult t := by
  induction ts generalizing used with
  | nil => exact ⟨rfl, h⟩
  | cons t ts ih =>
    rw [takeLoop]
    split
    · exact ⟨rfl, h⟩
    · obtain ⟨h1, h2⟩ := ih (used + (t.takeMeasured ops n o (l - used)).used) (fun x hx => h x (List.mem_cons_of_mem _ hx))
      dsimp only
      refine ⟨by simp [h1], fun x hx => ?_⟩
      rcases List.mem_cons.1 hx with rfl | hx
      · exact (h t (List.mem_cons_self ..)).take hU _ _ _
      · exact h2 x hx

theorem Fine.take {k mult : Nat} {u : UserBroadcasts Id B} (hU : ∀ m, ops.encodedLen m ≤ U64_MAX) (h : u.Fine ops k mult)
    (n o l : Nat) : (u.takeMeasured ops n o l).1.Fine ops k mult := by
  obtain ⟨h1, h2⟩ := takeLoop_fine hU n o l u.tiers 0 h.2
  exact ⟨by rw [← h.1]; exact h1, h2⟩

theorem taken_nil {B : Type} (limit : Nat) (l : List (LB B)) : Taken limit l [] l := ⟨l, by simp, by simp⟩

theorem drainOk_taken {s : BQueue Id B} {tl o l : Nat} {d : Drain Id B} (D : DrainOk ops s tl o l d) :
    Taken tl s.q d.sent d.s.q := by
  obtain ⟨rest, p1, p2⟩ := D.split
  refine ⟨rest, p1, ?_⟩
  have e : (fun x : LB B => !decide (tl ≤ x.transmits + 1)) = fun x => decide (x.transmits + 1 < tl) := by
    funext x
    by_cases hx : tl ≤ x.transmits + 1
    · simp [hx, Nat.not_lt.2 hx]
    · simp [hx, Nat.not_le.1 hx]
  rw [e] at p2
  exact p2

/-- What a drain takes out of each rank. -/
theorem takeLoop_taken {mult : Nat} (hU : ∀ m, ops.encodedLen m ≤ U64_MAX) (n o l : Nat) (ts : List (BQueue Id B)) (used : Nat)
    (h : ∀ t ∈ ts, BQueue.Fine ops mult t ∧ t.calls ≤ U64_MAX) :
    ∀ (i : Nat) t, ts[i]? = some t → ∃ t', (takeLoop ops n o l ts used).1[i]? = some t' ∧
      Taken (retransmitLimit mult n) t.q (((takeLoop ops n o l ts used).2.1[i]?).getD []) t'.q := by
  induction ts generalizing used with
  | nil => intro i t ht; simp at ht
  | cons t0 ts ih =>
    intro i t ht
    rw [takeLoop]
    split
    · exact ⟨t, ht, by simpa using taken_nil _ _⟩
    · dsimp only
      cases i with
      | zero =>
        simp only [List.getElem?_cons_zero, Option.some.injEq] at ht
        subst ht
        obtain ⟨hf, hc⟩ := h t0 (List.mem_cons_self ..)
        obtain ⟨hi, hg⟩ := hf.2 hc
        refine ⟨_, rfl, ?_⟩
        have D := (takeMeasured_spec hU hi (by omega) n o (l - used)).1
        have := drainOk_taken D
        rw [hf.1] at this
        simpa using this
      | succ i =>
        simp only [List.getElem?_cons_succ] at ht ⊢
        exact ih _ (fun x hx => h x (List.mem_cons_of_mem _ hx)) i t ht

/-- A drain of all ranks. -/
theorem take_chosen {k mult : Nat} {u : UserBroadcasts Unit Bytes} {ops : BroadcastOps Unit Bytes Bytes}
    (hU : ∀ m, ops.encodedLen m ≤ U64_MAX) (h : u.Fine ops k mult) (hc : ∀ t ∈ u.tiers, t.calls ≤ U64_MAX) (n l : Nat) :
    UsersChosen l (retransmitLimit mult n) (u.tiers.map (·.q)) (u.takeMeasured ops n USER_PART_OVERHEAD l).2.1
      ((u.takeMeasured ops n USER_PART_OVERHEAD l).1.tiers.map (·.q)) := by
  have hok : ∀ t ∈ u.tiers, TierOk ops U64_MAX t := fun t ht =>
    ⟨((h.2 t ht).2 (hc t ht)).1, ((h.2 t ht).2 (hc t ht)).2, hc t ht⟩
  obtain ⟨_, h2, h3, h4, h5, h6, h7⟩ := takeLoop_spec hU n USER_PART_OVERHEAD l U64_MAX (Nat.le_refl _) u.tiers 0 hok (Nat.zero_le _)
  simp only [takeMeasured]
  refine ⟨by simpa using h3, by simpa using h2, ?_, ?_, ?_⟩
  · intro i s hs
    obtain ⟨t, ht, G⟩ := h6 i s hs
    exact ⟨t.q, by simp [ht], by simpa using G⟩
  · intro hlt
    simp only [List.length_map] at hlt
    have := h7 hlt
    rw [h4] at this
    simpa using this
  · intro i t ht
    simp only [List.getElem?_map, Option.map_eq_some_iff] at ht
    obtain ⟨t0, ht0, rfl⟩ := ht
    obtain ⟨t', h', T⟩ := takeLoop_taken hU n USER_PART_OVERHEAD l u.tiers 0 (fun t ht => ⟨h.2 t ht, hc t ht⟩) i t0 ht0
    exact ⟨t'.q, by simp [h'], T⟩

end UserBroadcasts

namespace Ep
open Core
variable {I A : Type} [DecidableEq I] [DecidableEq A]
variable {cfg : Cfg I A} {env : Env I A}

theorem bytes_small (m : Bytes) : bytesOps.encodedLen m ≤ U64_MAX := Nat.min_le_right _ _

/-- The application's queue is well formed. -/
def UserFine (cfg : Cfg I A) (e : Ep I A) : Prop := e.user.Fine bytesOps cfg.userTiers cfg.retransmitMult

theorem micro_userFine {op : Op I A} {late : Bool} {a b : Ep I A} (h : UserFine cfg a) (hm : Micro cfg env op late a b) :
    UserFine cfg b := by
  unfold UserFine at h ⊢
  cases hm with
  | core x hx => exact h
  | aux _ hc hn hf hu =>
    rcases hu with hu | ⟨rank, data, fin, _, _, hl, hq⟩
    · rw [hu]; exact h
    · exact h.queue hq
  | send t ht => exact h
  | dial id peer d hr hd => exact h
  | start seq p a hs hr hw hlt => exact h
  | alloc seq hs => exact h
  | dispatched seq b hlt => exact h
  | fail seq p now hp hw hr hlt =>
    have : (a.probeTerminateFailure cfg env seq now).user = a.user := by
      unfold probeTerminateFailure
      (repeat' split) <;> rfl
    rw [this]; exact h
  | done seq p direct payload now hp hd hw hr hlt =>
    have : (a.completeProbeSuccess cfg env seq direct payload now).user = a.user := by
      unfold completeProbeSuccess probeTerminateFailure
      (repeat' split) <;> rfl
    rw [this]; exact h
  | nack src seq now ho =>
    have : (a.handleNack src seq now).user = a.user := by
      unfold handleNack
      (repeat' split) <;> rfl
    rw [this]; exact h
  | fan seq p now peers st ho hp hk hph hd hf hl hnd ha hfit hlt => exact h
  | fwd seq src p now ho hs hsrc hl hnew => exact h
  | fwdAnswer seq f hf payload now ho hd => exact h
  | fwdExpire seq f hf now ho hd => exact h
  | intent i hr => exact h
  | intentDial i hr hw => exact h
  | skipId => exact h
  | unintent id hw => exact h
  | retire seq => exact h
  | gossip targets now ho hr =>
    rw [sendAll_user]
    unfold drainGossip
    dsimp only
    split
    · exact h
    · split <;> exact UserBroadcasts.Fine.take bytes_small h _ _ _
  | leave now f ho hr =>
    have hd : (leaveWith cfg env a now f).user = a.user.reset.1 ∨
        ∃ n l, (leaveWith cfg env a now f).user = (a.user.takeMeasured bytesOps n USER_PART_OVERHEAD l).1.reset.1 := by
      unfold leaveWith
      rw [if_neg (by simp [hr])]
      dsimp only
      split
      · exact .inl rfl
      · dsimp only
        rw [sendFarewells_user]
        unfold farewellPayloads
        dsimp only
        split
        · exact .inl rfl
        · exact .inr ⟨_, _, rfl⟩
    rcases hd with hd | ⟨n, l, hd⟩
    · rw [hd]; exact h.reset
    · rw [hd]; exact (UserBroadcasts.Fine.take bytes_small h _ _ _).reset
  | poll ho =>
    have : a.pollTransmit.1.user = a.user := by
      unfold pollTransmit
      split
      · rfl
      · dsimp only
        split
        · rfl
        · split <;> rfl
    rw [this]; exact h

theorem reachable_userFine {e : Ep I A} (h : Reachable cfg env e) : UserFine cfg e := by
  refine reachable_induct (P := fun e => UserFine cfg e) h ?_ ?_
  · intro now e0 h0
    unfold UserFine
    rw [tryNew_eq h0]
    have : ∀ e : Ep I A, e.refreshCache.user = e.user := by
      intro e; unfold refreshCache; split <;> rfl
    rw [this]
    exact .new _ _
  · intro e op hr hq
    exact step_micro_induct (Q := fun e => UserFine cfg e) hr op hq (fun _ _ _ _ _ hq hm => micro_userFine hq hm)

end Ep
end Verif
