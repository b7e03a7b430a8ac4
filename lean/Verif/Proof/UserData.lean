import Verif.Proof.Gossip
/-
Where application data comes from.
-/
namespace Verif.Ep
open Verif Core Spec
variable {I A : Type} [DecidableEq I] [DecidableEq A]
variable {cfg : Cfg I A} {env : Env I A}

/-- A datagram carries only application data in `D`. -/
def Carries (D : Bytes → Prop) (t : Transmit I A) : Prop := ∀ b, Message.userData b ∈ messagesIn t → D b

/-- All application data waiting or in datagrams is in `D`. -/
structure Own (D : Bytes → Prop) (e : Ep I A) : Prop where
  user : e.user.All (fun _ b => D b)
  out : ∀ t ∈ e.net.transmits, Carries D t

omit [DecidableEq I] [DecidableEq A] in
theorem drainUser_own {D : Bytes → Prop} {e : Ep I A} (h : e.user.All (fun _ b => D b)) (n limit : Nat) :
    (e.drainUser n limit).1.user.All (fun _ b => D b) ∧ ∀ b ∈ (e.drainUser n limit).2, D b := by
  obtain ⟨h1, h2, _⟩ := UserBroadcasts.takeMeasured_all (ops := bytesOps) h n USER_PART_OVERHEAD limit
  refine ⟨h1, fun b hb => ?_⟩
  obtain ⟨x, hx, rfl⟩ := List.mem_map.1 hb
  exact h2 x hx

omit [DecidableEq A] in
theorem drainGossip_own {D : Bytes → Prop} {e : Ep I A} (hc : ClaimsOk env e.core.bcast) (h : e.user.All (fun _ b => D b)) :
    (e.drainGossip cfg env).1.user.All (fun _ b => D b) ∧ ∀ b, Message.userData b ∈ (e.drainGossip cfg env).2 → D b := by
  have hclaim : ∀ x : LB (I × Message I A), IsClaim x.broadcast → ∀ b, Message.userData b ≠ x.broadcast.2 := by
    intro x hx b he
    rcases hx with ⟨a, ha, _⟩ | ⟨a, ha, _⟩ | ⟨a, ha, _⟩ <;> rw [← he] at ha <;> cases ha
  have hu : ∀ (l : List Bytes) b, Message.userData b ∈ l.map (Message.userData (I := I) (A := A)) → b ∈ l := by
    intro l b hb
    obtain ⟨b', h', e⟩ := List.mem_map.1 hb
    cases e; exact h'
  unfold drainGossip
  dsimp only
  split
  · refine ⟨h, fun b hb => ?_⟩
    obtain ⟨x, hx, e⟩ := List.mem_map.1 hb
    exact (hclaim x ((BQueue.takeOne_all hc _ _).2.2 x hx).1.1 b e.symm).elim
  · split
    · have hd := fun n l c => drainUser_own (D := D) (e := { e with core := c }) h n l
      exact ⟨(hd _ _ _).1, fun b hb => (hd _ _ _).2 b (hu _ b hb)⟩
    · have hd := fun n l c => drainUser_own (D := D) (e := { e with core := c }) h n l
      refine ⟨(hd _ _ _).1, fun b hb => ?_⟩
      rcases List.mem_append.1 hb with hb | hb
      · obtain ⟨x, hx, e⟩ := List.mem_map.1 hb
        exact (hclaim x ((BQueue.takeMeasured_all hc _ _ _).sent x hx).1 b e.symm).elim
      · exact (hd _ _ _).2 b (hu _ b hb)

omit [DecidableEq I] [DecidableEq A] in
theorem carrying_own {D : Bytes → Prop} {msgs : List (Message I A)} (h : ∀ b, Message.userData b ∈ msgs → D b) {dst : A}
    {t : Transmit I A} (ht : t ∈ carrying dst msgs) : Carries D t := by
  intro b hb
  unfold carrying at ht
  split at ht
  · cases ht
  · rw [List.mem_singleton.1 ht] at hb; exact h b hb
  · rw [List.mem_singleton.1 ht] at hb; exact h b hb

theorem leave_own {D : Bytes → Prop} {e : Ep I A} (h : Own D e) (hr : e.core.lifecycle = .running) (now : Nat)
    (f : Option Bytes) (hf : ∀ b, f = some b → D b) : Own D (e.leaveWith cfg env now f) := by
  unfold leaveWith
  rw [if_neg (by simp [hr])]
  dsimp only
  split
  · exact ⟨UserBroadcasts.All.reset, fun t ht => by cases ht⟩
  · refine ⟨?_, ?_⟩
    · rw [sendFarewells_user]; exact UserBroadcasts.All.reset
    · have key : ∀ (peers : List A) (e1 : Ep I A) (ps : List Bytes) (d : BadState I),
          (∀ t ∈ e1.net.transmits, Carries D t) → (∀ b ∈ ps, D b) →
          ∀ t ∈ (e1.sendFarewells peers ps d).net.transmits, Carries D t := by
        intro peers e1 ps d h1 h2
        unfold sendFarewells
        induction peers generalizing e1 with
        | nil => exact h1
        | cons x l ih =>
          rw [List.foldl_cons]
          refine ih _ ?_
          split
          · intro t ht
            rcases List.mem_append.1 ht with ht | ht
            · exact h1 t ht
            · rw [List.mem_singleton.1 ht]; intro b hb; simp [messagesIn] at hb
          · intro t ht
            rcases List.mem_append.1 ht with ht | ht
            · exact h1 t ht
            · rw [List.mem_singleton.1 ht]; intro b hb
              simp only [messagesIn, List.mem_append, List.mem_map, Message.userData.injEq, exists_eq_right,
                List.mem_singleton, reduceCtorEq, or_false] at hb
              exact h2 b hb
      refine key _ _ _ _ ?_ ?_
      · intro t ht
        dsimp only at ht
        rw [farewellPayloads_net] at ht
        cases ht
      · intro b hb
        unfold farewellPayloads at hb
        dsimp only at hb
        split at hb
        · cases hb
        · rcases List.mem_append.1 hb with hb | hb
          · have : ∀ d : BadState I, ∀ b, (farewellBudget cfg env d f).2 = some b → f = some b := by
              intro d b
              unfold farewellBudget
              dsimp only
              split
              · intro h; cases h
              · split
                · intro h; exact h
                · intro h; cases h
            exact hf b (this _ b (by simpa using hb))
          · exact (drainUser_own h.user _ _).2 b hb

theorem micro_own {D : Bytes → Prop} {op : Op I A} {late : Bool} {a b : Ep I A} (hop : ∀ x ∈ appData op, D x)
    (hc : ClaimsOk env a.core.bcast) (h : Own D a) (hm : Micro cfg env op late a b) : Own D b := by
  have hsend : ∀ {t : Transmit I A} {l}, (∀ t ∈ l, Carries D t) → Carries D t → ∀ x ∈ l ++ [t], Carries D x := by
    intro t l h1 h2 x hx
    rcases List.mem_append.1 hx with hx | hx
    · exact h1 x hx
    · rw [List.mem_singleton.1 hx]; exact h2
  cases hm with
  | core x hx => exact ⟨h.user, h.out⟩
  | aux _ hc hn hf hu =>
    refine ⟨?_, by rw [hn.transmits]; exact h.out⟩
    rcases hu with hu | ⟨rank, data, fin, ho, _, hl, hq⟩
    · rw [hu]; exact h.user
    · subst ho
      exact h.user.queueRanked rank data (hop data (by simp [appData])) hq
  | send t ht =>
    refine ⟨h.user, hsend h.out ?_⟩
    intro x hx
    cases ht with
    | ack => simp [messagesIn] at hx
    | refuse => simp [messagesIn] at hx
    | relay _ _ _ _ msg hf hm => obtain ⟨_, rfl⟩ := hm; simp [messagesIn] at hx
    | probe _ now ho _ dst msg h hm => rcases hm with ⟨_, rfl⟩ | ⟨_, rfl⟩ <;> simp [messagesIn] at hx
    | probeBoth => simp [messagesIn] at hx
    | ping => simp [messagesIn] at hx
    | user dst data _ ho =>
      simp only [messagesIn, List.mem_singleton, Message.userData.injEq] at hx
      subst hx
      rcases ho with rfl | rfl <;> exact hop _ (by simp [appData])
    | users dst many =>
      simp only [messagesIn, List.mem_map, Message.userData.injEq, exists_eq_right] at hx
      exact hop x hx
  | dial id peer d hr hd => exact ⟨h.user, h.out⟩
  | start seq p a hs hr hw hlt => exact ⟨h.user, h.out⟩
  | alloc seq hs => exact ⟨h.user, h.out⟩
  | dispatched seq b hlt => exact ⟨h.user, h.out⟩
  | fail seq p now hp hw hr hlt =>
    refine ⟨by rw [(fail_adds _ _ _).2]; exact h.user, ?_⟩
    have : (a.probeTerminateFailure cfg env seq now).net.transmits = a.net.transmits := by
      rw [terminate_net _ _ _ _ hp]
      unfold discardProbe
      dsimp only
      split <;> rfl
    rw [this]; exact h.out
  | done seq p direct payload now hp hd hw hr hlt =>
    have h1 : (a.completeProbeSuccess cfg env seq direct payload now).user = a.user := by
      unfold completeProbeSuccess probeTerminateFailure
      (repeat' split) <;> rfl
    have h2 : (a.completeProbeSuccess cfg env seq direct payload now).net.transmits = a.net.transmits := by
      unfold completeProbeSuccess
      rw [hp]
      dsimp only
      rw [if_neg (by omega)]
      (repeat' split) <;> rfl
    exact ⟨by rw [h1]; exact h.user, by rw [h2]; exact h.out⟩
  | nack src seq now ho =>
    have h1 : (a.handleNack src seq now).user = a.user := by
      unfold handleNack
      (repeat' split) <;> rfl
    have h2 : (a.handleNack src seq now).net.transmits = a.net.transmits := by
      unfold handleNack
      (repeat' split) <;> rfl
    exact ⟨by rw [h1]; exact h.user, by rw [h2]; exact h.out⟩
  | fan seq p now peers st ho hp hk hph hd hf hl hnd ha hfit hlt =>
    refine ⟨h.user, fun t ht => ?_⟩
    rcases List.mem_append.1 ht with ht | ht
    · exact h.out t ht
    · obtain ⟨x, _, rfl⟩ := List.mem_map.1 ht
      intro b hb; simp [messagesIn, relayRequest] at hb
  | fwd seq src p now ho hs hsrc hl hnew => exact ⟨h.user, h.out⟩
  | fwdAnswer seq f hf payload now ho hd => exact ⟨h.user, hsend h.out (by intro b hb; simp [messagesIn] at hb)⟩
  | fwdExpire seq f hf now ho hd => exact ⟨h.user, hsend h.out (by intro b hb; simp [messagesIn] at hb)⟩
  | intent i hr => exact ⟨h.user, h.out⟩
  | intentDial i hr hw => exact ⟨h.user, h.out⟩
  | skipId => exact ⟨h.user, h.out⟩
  | unintent id hw => exact ⟨h.user, h.out⟩
  | retire seq => exact ⟨h.user, h.out⟩
  | gossip targets now ho hr hlt =>
    obtain ⟨h1, h2⟩ := drainGossip_own (cfg := cfg) hc h.user
    refine ⟨by rw [sendAll_user]; exact h1, fun t ht => ?_⟩
    rw [sendAll_transmits, (drainGossip_net _).1] at ht
    rcases List.mem_append.1 ht with ht | ht
    · exact h.out t ht
    · obtain ⟨x, _, ht⟩ := List.mem_flatMap.1 ht
      exact carrying_own h2 ht
  | leave now f ho hr =>
    subst ho
    refine leave_own h hr now f ?_
    rintro b rfl
    exact hop b (by simp [appData])
  | poll ho =>
    have h1 : a.pollTransmit.1.user = a.user := by
      unfold pollTransmit
      split
      · rfl
      · dsimp only
        split
        · rfl
        · split <;> rfl
    refine ⟨by rw [h1]; exact h.user, fun t ht => h.out t ?_⟩
    unfold pollTransmit at ht
    split at ht
    · exact ht
    · rename_i t0 rest hts
      dsimp only at ht
      rw [hts]
      refine List.mem_cons_of_mem _ ?_
      revert ht
      split
      · exact id
      · split <;> exact id

theorem run_own {now : Nat} {e0 : Ep I A} (h0 : tryNew cfg env now = .ok e0) (ops : List (Op I A)) :
    Own (fun b => ∃ op ∈ ops, b ∈ appData op) (run cfg env e0 ops) := by
  induction ops using snoc_induction with
  | h0 =>
    have hr : ∀ e : Ep I A, e.refreshCache.user = e.user ∧ e.refreshCache.net = e.net := by
      intro e; unfold refreshCache; split <;> exact ⟨rfl, rfl⟩
    rw [show run cfg env e0 [] = e0 from rfl, tryNew_eq h0]
    refine ⟨?_, ?_⟩
    · rw [(hr _).1]; exact UserBroadcasts.new_all _ _
    · rw [(hr _).2]; intro t ht; cases ht
  | h1 ops op ih =>
    rw [run_snoc]
    have hR : Reachable cfg env (run cfg env e0 ops) := ⟨now, e0, ops, h0, rfl⟩
    have ih' : Own (fun b => ∃ o ∈ ops ++ [op], b ∈ appData o) (run cfg env e0 ops) := by
      refine ⟨fun t ht x hx => ?_, fun t ht b hb => ?_⟩
      · obtain ⟨o, ho, hb⟩ := ih.user t ht x hx
        exact ⟨o, by simp [ho], hb⟩
      · obtain ⟨o, ho, hb⟩ := ih.out t ht b hb
        exact ⟨o, by simp [ho], hb⟩
    refine (step_micro_induct (Q := fun e => Own (fun b => ∃ o ∈ ops ++ [op], b ∈ appData o) e ∧ ClaimsOk env e.core.bcast)
      hR op ⟨ih', reachable_claims hR⟩ ?_).1
    intro late a b hg _ hq hm
    exact ⟨micro_own (fun x hx => ⟨op, by simp, hx⟩) hq.2 hq.1 hm, micro_claims hm hg hq.2⟩

/-! ### What happens to waiting broadcasts -/

/-- Only four calls touch the broadcasts of the application. -/
theorem micro_users {op : Op I A} {late : Bool} {a b : Ep I A} (h1 : ∀ t, op ≠ .timeout t) (h2 : ∀ r d, op ≠ .queueUser r d)
    (h3 : ∀ t f, op ≠ .leave t f) (hm : Micro cfg env op late a b) : b.user = a.user := by
  cases hm with
  | aux _ hc hn hf hu =>
    rcases hu with hu | ⟨rank, data, fin, ho, _⟩
    · exact hu
    · exact absurd ho (h2 _ _)
  | fail seq p now hp hw hr hlt => exact (fail_adds _ _ _).2
  | done seq p direct payload now hp hd hw hr hlt =>
    unfold completeProbeSuccess probeTerminateFailure
    (repeat' split) <;> rfl
  | nack src seq now ho =>
    unfold handleNack
    (repeat' split) <;> rfl
  | gossip targets now ho hr hlt => exact absurd ho (h1 _)
  | leave now f ho hr => exact absurd ho (h3 _ _)
  | poll ho =>
    unfold pollTransmit
    split
    · rfl
    · dsimp only
      split
      · rfl
      · split <;> rfl
  | _ => rfl

end Verif.Ep
