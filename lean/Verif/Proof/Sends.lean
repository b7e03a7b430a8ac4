import Verif.Proof.ProbeFacts
import Verif.Proof.Claims
/-
What the two gossip queues hold in reachable states, and so what gossip sends.
-/
namespace Verif.Ep
open Verif Core Spec
variable {I A : Type} [DecidableEq I] [DecidableEq A]
variable {cfg : Cfg I A} {env : Env I A}

theorem reachable_claims {e : Ep I A} (h : Reachable cfg env e) : ClaimsOk env e.core.bcast :=
  (reachable_induct (P := fun e => Good cfg e.core ∧ ClaimsOk env e.core.bcast) h
    (fun now e0 h0 => by rw [tryNew_core h0]; exact ⟨good_init now, claimsOk_init now⟩)
    (fun e op _ hg => ⟨(step_acts e op).good hg.1,
      (step_acts e op).inductGood (Q := fun c => ClaimsOk env c.bcast) hg.1 hg.2
        (fun _ x _ hc hq => (qs_act hc x).claims hq)⟩)).2

/-- Every queued payload records its length, and fits a datagram. -/
def UserOk (cfg : Cfg I A) (u : UserBroadcasts Unit Bytes) : Prop :=
  u.All (fun n b => n = min b.length U64_MAX ∧ b.length ≤ compoundBudget cfg - USER_PART_OVERHEAD)

omit [DecidableEq I] [DecidableEq A] in
theorem drainUser_ok {e : Ep I A} (h : UserOk cfg e.user) (n limit : Nat) :
    UserOk cfg (e.drainUser n limit).1.user ∧
    (∀ b ∈ (e.drainUser n limit).2, b.length ≤ compoundBudget cfg - USER_PART_OVERHEAD) ∧
    ((e.drainUser n limit).2.map (fun b => min b.length U64_MAX + USER_PART_OVERHEAD)).sum ≤ limit := by
  obtain ⟨h1, h2, h3⟩ := UserBroadcasts.takeMeasured_all (ops := bytesOps) h n USER_PART_OVERHEAD limit
  refine ⟨h1, ?_, ?_⟩
  · intro b hb
    unfold drainUser at hb
    dsimp only at hb
    obtain ⟨x, hx, rfl⟩ := List.mem_map.1 hb
    exact (h2 x hx).2
  · unfold drainUser
    dsimp only
    rw [List.map_map]
    refine Nat.le_trans (Nat.le_of_eq ?_) h3
    congr 1
    apply List.map_congr_left
    intro x hx
    show min x.broadcast.length U64_MAX + _ = _
    rw [(h2 x hx).1]

omit [DecidableEq I] [DecidableEq A] in
theorem sendAll_user (e : Ep I A) (l : List A) (ms : List (Message I A)) : (e.sendAll l ms).user = e.user := by
  unfold sendAll
  induction l generalizing e with
  | nil => rfl
  | cons a l ih =>
    rw [List.foldl_cons, ih]
    split <;> rfl

omit [DecidableEq A] in
theorem drainGossip_user {e : Ep I A} (h : UserOk cfg e.user) : UserOk cfg (e.drainGossip cfg env).1.user := by
  unfold drainGossip
  dsimp only
  split
  · exact h
  · split
    · exact (drainUser_ok (e := { e with core := _ }) h _ _).1
    · exact (drainUser_ok (e := { e with core := _ }) h _ _).1

omit [DecidableEq I] [DecidableEq A] in
theorem sendFarewells_user (e : Ep I A) (l : List A) (ps : List Bytes) (d : BadState I) :
    (e.sendFarewells l ps d).user = e.user := by
  unfold sendFarewells
  induction l generalizing e with
  | nil => rfl
  | cons a l ih =>
    rw [List.foldl_cons, ih]
    split <;> rfl

theorem micro_user {op : Op I A} {late : Bool} {a b : Ep I A} (h : UserOk cfg a.user) (hm : Micro cfg env op late a b) :
    UserOk cfg b.user := by
  cases hm with
  | core x hx => exact h
  | aux _ hc hn hf hu =>
    rcases hu with hu | ⟨rank, data, fin, _, _, hl, hq⟩
    · rw [hu]; exact h
    · exact UserBroadcasts.All.queueRanked h rank data ⟨rfl, hl⟩ hq
  | send t ht => exact h
  | dial id peer d hr hd => exact h
  | start seq p a hs hr hw hlt => exact h
  | alloc seq hs => exact h
  | dispatched seq b hlt => exact h
  | fail seq p now hp hw hr hlt =>
    have : (a.probeTerminateFailure cfg env seq now).user = a.user := by
      unfold probeTerminateFailure
      (repeat' split) <;> rfl
    rw [this]; exact h
  | done seq p direct payload now hp hd hw hr hlt =>
    have : (a.completeProbeSuccess cfg env seq direct payload now).user = a.user := by
      unfold completeProbeSuccess probeTerminateFailure
      (repeat' split) <;> rfl
    rw [this]; exact h
  | nack src seq now ho =>
    have : (a.handleNack src seq now).user = a.user := by
      unfold handleNack
      (repeat' split) <;> rfl
    rw [this]; exact h
  | fan seq p now peers st ho hp hk hph hd hf hl hnd ha hfit hlt => exact h
  | fwd seq src p now ho hs hsrc hl hnew => exact h
  | fwdAnswer seq f hf payload now ho hd => exact h
  | fwdExpire seq f hf now ho hd => exact h
  | intent i hr => exact h
  | intentDial i hr hw => exact h
  | skipId => exact h
  | unintent id hw => exact h
  | retire seq => exact h
  | gossip targets now ho hr => rw [sendAll_user]; exact drainGossip_user h
  | leave now f ho hr =>
    unfold leaveWith
    rw [if_neg (by simp [hr])]
    dsimp only
    split
    · exact UserBroadcasts.All.reset
    · dsimp only
      rw [sendFarewells_user]
      exact UserBroadcasts.All.reset
  | poll ho =>
    have : a.pollTransmit.1.user = a.user := by
      unfold pollTransmit
      split
      · rfl
      · dsimp only
        split
        · rfl
        · split <;> rfl
    rw [this]; exact h

theorem reachable_user {e : Ep I A} (h : Reachable cfg env e) : UserOk cfg e.user := by
  refine reachable_induct (P := fun e => UserOk cfg e.user) h ?_ ?_
  · intro now e0 h0
    rw [tryNew_eq h0]
    have : ∀ e : Ep I A, e.refreshCache.user = e.user := by
      intro e; unfold refreshCache; split <;> rfl
    rw [this]
    exact UserBroadcasts.new_all _ _
  · intro e op hr hq
    exact step_micro_induct (Q := fun e => UserOk cfg e.user) hr op hq (fun _ _ _ _ _ hq hm => micro_user hq hm)

/-- What gossip sends: claims about members and application payloads. -/
def GossipMsg (m : Message I A) : Prop :=
  (∃ id, IsClaim (id, m)) ∨ (∃ b, m = .userData b)

omit [DecidableEq A] in
theorem drainGossip_msgs {e : Ep I A} (hc : ClaimsOk env e.core.bcast) :
    ∀ m ∈ (e.drainGossip cfg env).2, GossipMsg m := by
  unfold drainGossip
  dsimp only
  have huser : ∀ (l : List Bytes), ∀ m ∈ l.map (Message.userData (I := I) (A := A)), GossipMsg m := by
    intro l m hm
    obtain ⟨b, _, rfl⟩ := List.mem_map.1 hm
    exact .inr ⟨b, rfl⟩
  split
  · intro m hm
    obtain ⟨x, hx, rfl⟩ := List.mem_map.1 hm
    exact .inl ⟨x.broadcast.1, ((BQueue.takeOne_all hc _ _).2.2 x hx).1.1⟩
  · split
    · exact huser _
    · intro m hm
      rcases List.mem_append.1 hm with hm | hm
      · obtain ⟨x, hx, rfl⟩ := List.mem_map.1 hm
        exact .inl ⟨x.broadcast.1, ((BQueue.takeMeasured_all hc _ _ _).sent x hx).1⟩
      · exact huser _ m hm

end Verif.Ep
