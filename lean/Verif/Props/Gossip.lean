import Verif.Proof.UserData
import Verif.Example.Endpoint
/-
C59: gossip rounds. C60: broadcasts of the application.
-/
namespace Verif.Props
open Verif Ep Core Spec
variable {I A : Type} [DecidableEq I] [DecidableEq A]
variable {cfg : Cfg I A} {env : Env I A}

/-- C59: a running node whose gossip round is due queues, after the datagrams of its failure detector, one datagram for
each of `gossipNodes` different entries of the members gossip may go to, or for all of them if there are fewer. All of
them carry the same messages: claims chosen out of the waiting ones, and broadcasts of the application in the space left.
What was sent counts one transmission more, and is dropped when it has been sent as often as the limit for this cluster
size says. No claim that waited before the call is lost otherwise: it is either still there to choose from or was
replaced by a newer one about the same node. The next round is one interval later. -/
theorem C59_round {e e' : Ep I A} (h : Reachable cfg env e) (hl : e.core.lifecycle = .running) {now d : Nat}
    (hd : e.nextGossip = some d) (hn : d ≤ now) (he : e' = (e.step cfg env (.timeout now)).1)
    (hc : e'.core.bcast.calls ≤ U64_MAX) (hu : ∀ t ∈ e.user.tiers, t.calls ≤ U64_MAX) :
    ∃ (probing : List (Transmit I A)) (targets : List A) (claims : List (LB (I × Message I A)))
      (user : List (List (LB Bytes))),
      e'.net.transmits = e.net.transmits ++ probing ++ targets.flatMap (fun a => carrying a
        (claims.map (fun x => x.broadcast.2) ++ user.flatten.map (fun x => Message.userData x.broadcast))) ∧
      (∀ t ∈ probing, ProbeTraffic t) ∧
      (∃ rest, (gossipPeers cfg e' now).Perm (targets ++ rest)) ∧
      targets.length = min cfg.gossipNodes (gossipPeers cfg e' now).length ∧
      e'.nextGossip = some (now + cfg.gossipInterval) ∧
      ∃ waiting, Keeps e.core.bcast.q waiting ∧
        ((targets = [] ∧ e'.core.bcast.q = waiting ∧ userQueues e' = userQueues e) ∨
          ∃ left, ClaimsChosen cfg waiting claims left ∧
            Taken (retransmitLimit cfg.retransmitMult e'.core.members.length) waiting claims e'.core.bcast.q ∧
            UsersChosen left (retransmitLimit cfg.retransmitMult e'.core.members.length) (userQueues e) user
              (userQueues e')) := by
  obtain ⟨b, hs, hg, ha, hbu, hbg⟩ := before_gossip h hl now
  rw [← he] at hs
  obtain ⟨a1, a2, a3, a4, a5⟩ := after_gossip (cfg := cfg) (env := env) (b.fireGossipScheduler cfg env now) now
  rw [← hs] at a1 a2 a3 a4 a5
  have hqb := ha.steps.ok (reachable_qok h)
  have hbc : b.core.bcast.calls ≤ U64_MAX := by
    have : (b.fireGossipScheduler cfg env now).core.bcast.calls = b.core.bcast.calls := fireGossip_calls b now
    rw [a1, this] at hc
    exact hc
  obtain ⟨targets, claims, user, h1, h2, h3, h4, h5, h6⟩ := fireGossip_spec (cfg := cfg) (env := env) (e := b) hqb hbc
    ((QSteps.mult ha.steps).trans (reachable_mult h)) (by unfold UserFine; rw [hbu]; exact reachable_userFine h)
    (by rw [hbu]; exact hu) (hbg.trans hd) hn
  obtain ⟨probing, p1, p2⟩ := hg
  have hpeers : gossipPeers cfg b now = gossipPeers cfg e' now := by
    unfold gossipPeers; rw [a2, h5]
  have hlen : b.core.members = e'.core.members := by rw [a2, h5]
  rw [hpeers] at h2 h3
  rw [hlen] at h6
  refine ⟨probing, targets, claims, user, by rw [a4, h1, p1], p2, h2, h3, by rw [a5, h4], b.core.bcast.q,
    ha.keeps (reachable_qok h) hbc, ?_⟩
  have hub : userQueues b = userQueues e := by unfold userQueues; rw [hbu]
  have hue : userQueues (b.fireGossipScheduler cfg env now) = userQueues e' := by unfold userQueues; rw [a3]
  rcases h6 with ⟨k1, k2, k3⟩ | ⟨left, k1, k2, k3⟩
  · exact .inl ⟨k1, by rw [a1, k2], by rw [← hue, ← hub]; unfold userQueues; rw [k3]⟩
  · refine .inr ⟨left, k1, by rw [a1]; exact k2, ?_⟩
    rw [← hub, ← hue]
    exact k3

/-- C59: a call that services the timers before the gossip round is due queues only datagrams of the failure detector,
and leaves the broadcasts of the application as they were. -/
theorem C59_quiet {e e' : Ep I A} (h : Reachable cfg env e) (hl : e.core.lifecycle = .running) {now : Nat}
    (hd : ∀ d, e.nextGossip = some d → now < d) (he : e' = (e.step cfg env (.timeout now)).1) :
    (∃ probing, e'.net.transmits = e.net.transmits ++ probing ∧ ∀ t ∈ probing, ProbeTraffic t) ∧
      userQueues e' = userQueues e ∧ e'.nextGossip = e.nextGossip ∧
      (e'.core.bcast.calls ≤ U64_MAX → Keeps e.core.bcast.q e'.core.bcast.q) := by
  obtain ⟨b, hs, ⟨probing, p1, p2⟩, ha, hbu, hbg⟩ := before_gossip h hl now
  rw [← he, fireGossip_idle (by rw [hbg]; exact hd)] at hs
  obtain ⟨a1, a2, a3, a4, a5⟩ := after_gossip (cfg := cfg) (env := env) b now
  rw [← hs] at a1 a2 a3 a4 a5
  refine ⟨⟨probing, by rw [a4, p1], p2⟩, by unfold userQueues; rw [a3, hbu], by rw [a5, hbg], fun hc => ?_⟩
  rw [a1] at hc ⊢
  exact ha.keeps (reachable_qok h) hc

/-- Scheduling starts, two members join, the application queues broadcasts, the round becomes due. -/
def hGossip : List (Op Nat Nat) :=
  [.startScheduling (10 * MS), .packet 101 (Ex.alive 1 5 [1]) (20 * MS), .packet 102 (Ex.alive 2 5 [2]) (30 * MS),
   .queueUser 0 [9, 9], .queueUser 1 [8], .queueUser 7 [7]]

example : (Ex.after hGossip).core.lifecycle = .running ∧ (Ex.after hGossip).nextGossip = some (10 * MS) ∧
    10 * MS ≤ 210 * MS ∧ ((Ex.after hGossip).step Ex.cfg Ex.env (.timeout (210 * MS))).1.core.bcast.calls ≤ U64_MAX ∧
    (∀ t ∈ (Ex.after hGossip).user.tiers, t.calls ≤ U64_MAX) := by decide +kernel

example : ((Ex.after hGossip).step Ex.cfg Ex.env (.timeout (210 * MS))).1.net.transmits.map (fun t => match t with
      | .packet dst _ => (dst, 1)
      | .compound dst ms => (dst, ms.length)) = [(102, 1), (102, 6), (101, 6)] ∧
    (userQueues ((Ex.after hGossip).step Ex.cfg Ex.env (.timeout (210 * MS))).1).map (fun q => q.map (fun x => x.transmits)) =
      [[1], [1, 1]] := by
  decide +kernel

example : ∀ d, (Ex.after hGossip).nextGossip = some d → 5 * MS < d := by
  have : (Ex.after hGossip).nextGossip = some (10 * MS) := by decide +kernel
  rw [this]; intro d hd; cases hd; decide

/-! ### Broadcasts of the application -/

/-- C60: an accepted broadcast joins the ones that wait, with no transmission yet, in the rank it was given (the last
rank if there are fewer), and changes no other. -/
theorem C60_queued {e e' : Ep I A} (h : Reachable cfg env e) (rank : Nat) (data : Bytes) (ht : 0 < cfg.userTiers)
    (hc : ∀ t ∈ e.user.tiers, t.calls < U64_MAX) (he : e' = (e.step cfg env (.queueUser rank data)).1)
    (hok : (e.step cfg env (.queueUser rank data)).2 = .result (.ok ())) :
    ∃ old new x, (userQueues e)[min rank (cfg.userTiers - 1)]? = some old ∧
      userQueues e' = (userQueues e).set (min rank (cfg.userTiers - 1)) new ∧ new.Perm (x :: old) ∧
      x.broadcast = data ∧ x.transmits = 0 := by
  have hf := reachable_userFine h
  obtain ⟨hlen, hfine⟩ := hf
  have hlt : min rank (cfg.userTiers - 1) < e.user.tiers.length := by rw [hlen]; omega
  have hq : e.user.queueRanked bytesOps rank data = some
      (⟨e.user.tiers.set (min rank (cfg.userTiers - 1))
          (e.user.tiers[min rank (cfg.userTiers - 1)].queueBroadcast bytesOps data).1⟩,
        (e.user.tiers[min rank (cfg.userTiers - 1)].queueBroadcast bytesOps data).2) := by
    unfold UserBroadcasts.queueRanked
    simp only [hlen, List.getElem?_eq_getElem hlt]
  have hu : e'.user = ⟨e.user.tiers.set (min rank (cfg.userTiers - 1))
          (e.user.tiers[min rank (cfg.userTiers - 1)].queueBroadcast bytesOps data).1⟩ := by
    rw [he]
    simp only [step] at hok ⊢
    unfold queueUser at hok ⊢
    by_cases h1 : (!e.isRunning) = true
    · rw [if_pos h1] at hok; cases hok
    · rw [if_neg h1] at hok ⊢
      by_cases h2 : data.length > compoundBudget cfg - USER_PART_OVERHEAD
      · rw [if_pos h2] at hok; cases hok
      · rw [if_neg h2, hq]
  have hm : e.user.tiers[min rank (cfg.userTiers - 1)] ∈ e.user.tiers := List.getElem_mem hlt
  obtain ⟨hi, hg⟩ := (hfine _ hm).2 (Nat.le_of_lt (hc _ hm))
  obtain ⟨_, _, _, _, lb, rest, p1, p2, _, e2, e3, _, e5⟩ := hi.queueBroadcast data (by have := hc _ hm; omega)
  have hnone : (e.user.tiers[min rank (cfg.userTiers - 1)].queueBroadcast bytesOps data).2 = [] := by
    refine List.eq_nil_iff_forall_not_mem.2 fun y hy => ?_
    have := ((e5 y).1 hy).2
    simp [bytesOps] at this
  rw [hnone, List.nil_append] at p2
  refine ⟨(e.user.tiers[min rank (cfg.userTiers - 1)]).q, _, lb, ?_, ?_, p1.trans (p2.symm.cons lb), e3, e2⟩
  · unfold userQueues
    rw [List.getElem?_map, List.getElem?_eq_getElem hlt]
    rfl
  · unfold userQueues
    rw [hu, List.map_set]

/-- C60: apart from that, only gossip rounds (C59) and leaving change the broadcasts that wait. -/
theorem C60_kept {e : Ep I A} (h : Reachable cfg env e) (op : Op I A) (h1 : ∀ t, op ≠ .timeout t)
    (h2 : ∀ r d, op ≠ .queueUser r d) (h3 : ∀ t f, op ≠ .leave t f) :
    userQueues (e.step cfg env op).1 = userQueues e := by
  unfold userQueues
  rw [step_micro_induct (Q := fun b => b.user = e.user) h op rfl (fun _ _ _ _ _ hq hm => (micro_users h1 h2 h3 hm).trans hq)]

/-- C60: a node that leaves drops the broadcasts that wait. -/
theorem C60_leave {e : Ep I A} (hl : e.core.lifecycle = .running) (now : Nat) (f : Option Bytes) :
    ∀ q ∈ userQueues (e.step cfg env (.leave now f)).1, q = [] := by
  have hr : ∀ (u : UserBroadcasts Unit Bytes), ∀ q ∈ u.reset.1.tiers.map (fun t => t.q), q = [] := by
    intro u q hq
    obtain ⟨t, ht, rfl⟩ := List.mem_map.1 hq
    obtain ⟨t0, _, rfl⟩ := List.mem_map.1 ht
    rfl
  show ∀ q ∈ userQueues (e.leaveWith cfg env now f), q = []
  unfold userQueues leaveWith
  rw [if_neg (by simp [hl])]
  dsimp only
  split
  · exact hr _
  · rw [sendFarewells_user]; exact hr _

/-- C60: application data is never made up. All that waits to be broadcast and all that is in a queued datagram was
passed in by the application. -/
theorem C60_origin {now : Nat} {e0 : Ep I A} (h0 : tryNew cfg env now = .ok e0) (ops : List (Op I A)) :
    (∀ q ∈ userQueues (run cfg env e0 ops), ∀ x ∈ q, ∃ op ∈ ops, x.broadcast ∈ appData op) ∧
    ∀ t ∈ (run cfg env e0 ops).net.transmits, ∀ b, Message.userData b ∈ messagesIn t → ∃ op ∈ ops, b ∈ appData op := by
  have h := run_own h0 ops
  refine ⟨fun q hq x hx => ?_, h.out⟩
  obtain ⟨t, ht, rfl⟩ := List.mem_map.1 hq
  exact h.user t ht x hx

example : 0 < Ex.cfg.userTiers ∧ (∀ t ∈ (Ex.after hGossip).user.tiers, t.calls < U64_MAX) ∧
    ((Ex.after hGossip).step Ex.cfg Ex.env (.queueUser 1 [1, 2])).2 = .result (.ok ()) := by
  refine ⟨by decide +kernel, by decide +kernel, ?_⟩
  have hr : (Ex.after hGossip).isRunning = true := by decide +kernel
  have ht : (Ex.after hGossip).user.tiers.length = 2 := by decide +kernel
  simp only [step, queueUser, hr, UserBroadcasts.queueRanked, ht]
  rw [if_neg (by decide), if_neg (by decide)]
  split <;> rfl

example : (userQueues (Ex.after hGossip)).map (fun q => q.map (fun x => x.broadcast)) = [[[9, 9]], [[7], [8]]] ∧
    (userQueues ((Ex.after hGossip).step Ex.cfg Ex.env (.leave (300 * MS) none)).1).map (fun q => q.length) = [0, 0] ∧
    ((Ex.after hGossip).step Ex.cfg Ex.env (.leave (300 * MS) (some [5]))).1.net.transmits.flatMap (fun t =>
      (messagesIn t).filterMap (fun m => match m with | .userData b => some b | _ => none)) =
        [[5], [9, 9], [7], [8], [5], [9, 9], [7], [8]] := by decide +kernel

end Verif.Props
