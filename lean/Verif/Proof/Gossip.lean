import Verif.Proof.Fair
import Verif.Proof.UserQueue
/-
Gossip rounds.
-/
namespace Verif.Ep
open Verif Core Spec
variable {I A : Type} [DecidableEq I] [DecidableEq A]
variable {cfg : Cfg I A} {env : Env I A}

/-! ### The choice of targets -/

theorem reservoir_perm {T : Type} (k : Nat) (σ : Nat → Nat) (xs : List T) :
    ∀ (i : Nat) (res : List T), ∃ rest, (res ++ xs).Perm (reservoir k σ i xs res ++ rest) := by
  induction xs with
  | nil => intro i res; exact ⟨[], by simp [reservoir]⟩
  | cons x xs ih =>
    intro i res
    rw [reservoir]
    split
    · obtain ⟨rest, h⟩ := ih (i + 1) (res ++ [x])
      exact ⟨rest, by simpa using h⟩
    · dsimp only
      split
      · obtain ⟨rest, h⟩ := ih (i + 1) (res.set (σ i % (i + 1)) x)
        by_cases hj : σ i % (i + 1) < res.length
        · refine ⟨res[σ i % (i + 1)] :: rest, ?_⟩
          have hp : (res ++ x :: xs).Perm (res[σ i % (i + 1)] :: (res.set (σ i % (i + 1)) x ++ xs)) := by
            rw [List.set_eq_take_append_cons_drop, if_pos hj]
            have e : res = res.take (σ i % (i + 1)) ++ res[σ i % (i + 1)] :: res.drop (σ i % (i + 1) + 1) := by
              rw [List.getElem_cons_drop hj, List.take_append_drop]
            conv => lhs; rw [e]
            have : ∀ (a b c : List T) (y z : T), ((a ++ y :: b) ++ z :: c).Perm (y :: ((a ++ z :: b) ++ c)) := by
              intro a b c y z
              have h1 : ((a ++ y :: b) ++ z :: c).Perm (y :: (a ++ (b ++ z :: c))) := by
                rw [List.append_assoc]; exact List.perm_middle
              refine h1.trans (List.Perm.cons y ?_)
              rw [List.append_assoc]
              exact List.Perm.append_left a List.perm_middle
            exact this _ _ _ _ _
          refine hp.trans ?_
          refine ((h.cons _).trans ?_)
          exact (List.perm_middle).symm
        · rw [List.set_eq_of_length_le (by omega)] at h
          refine ⟨x :: rest, ?_⟩
          rw [List.set_eq_of_length_le (by omega)]
          refine (List.perm_middle.trans (h.cons x)).trans (List.perm_middle).symm
      · obtain ⟨rest, h⟩ := ih (i + 1) res
        exact ⟨x :: rest, (List.perm_middle.trans (h.cons x)).trans (List.perm_middle).symm⟩

theorem pickRandom_perm {T : Type} (pool : List T) (k : Nat) (σ : Nat → Nat) :
    ∃ rest, pool.Perm (pickRandom pool k σ ++ rest) := by
  obtain ⟨rest, h⟩ := reservoir_perm k σ pool 0 []
  exact ⟨rest, h⟩

/-! ### Sending -/

omit [DecidableEq I] [DecidableEq A] in
theorem sendAll_transmits (targets : List A) (msgs : List (Message I A)) (e : Ep I A) :
    (e.sendAll targets msgs).net.transmits = e.net.transmits ++ targets.flatMap (fun a => carrying a msgs) := by
  unfold sendAll
  induction targets generalizing e with
  | nil => simp
  | cons x l ih =>
    rw [List.foldl_cons, ih, List.flatMap_cons, ← List.append_assoc]
    congr 1
    cases msgs with
    | nil => simp [datagram, carrying]
    | cons m ms =>
      cases ms with
      | nil => rfl
      | cons m' ms => rfl

omit [DecidableEq A] in
theorem gossipPeers_eq (e : Ep I A) (now : Nat) : gossipCandidates cfg e.core.members now = gossipPeers cfg e now := by
  unfold gossipCandidates gossipPeers
  congr 1
  apply List.filter_congr
  intro m _
  congr 1
  cases m.state <;> simp

/-! ### Probe traffic -/

/-- Only datagrams of the failure detector are queued. -/
def Grow (a b : Ep I A) : Prop :=
  ∃ ts, b.net.transmits = a.net.transmits ++ ts ∧ ∀ t ∈ ts, ProbeTraffic t

omit [DecidableEq I] [DecidableEq A] in
theorem Grow.same {a b : Ep I A} (h : b.net.transmits = a.net.transmits) : Grow a b := ⟨[], by simp [h], by simp⟩

omit [DecidableEq I] [DecidableEq A] in
theorem Grow.trans {a b c : Ep I A} (h : Grow a b) (h2 : Grow b c) : Grow a c := by
  obtain ⟨t1, e1, p1⟩ := h
  obtain ⟨t2, e2, p2⟩ := h2
  refine ⟨t1 ++ t2, by rw [e2, e1, List.append_assoc], fun t ht => ?_⟩
  rcases List.mem_append.1 ht with ht | ht
  · exact p1 t ht
  · exact p2 t ht

omit [DecidableEq I] [DecidableEq A] in
theorem Grow.send {a b : Ep I A} (h : Grow a b) {t : Transmit I A} (ht : ProbeTraffic t) : Grow a (b.send t) :=
  h.trans ⟨[t], rfl, by simpa using ht⟩

omit [DecidableEq I] [DecidableEq A] in
theorem Grow.congr {a b a' b' : Ep I A} (h : Grow a b) (ha : a'.net.transmits = a.net.transmits)
    (hb : b'.net.transmits = b.net.transmits) : Grow a' b' := by
  obtain ⟨t1, e1, p1⟩ := h
  exact ⟨t1, by rw [hb, ha, e1], p1⟩

theorem micro_grow {now : Nat} {a b : Ep I A} (hm : Micro cfg env (.timeout now) false a b) : Grow a b := by
  cases hm with
  | core x hx => exact .same rfl
  | aux _ hc hn hf hu => exact .same hn.transmits
  | send t ht =>
    refine (Grow.same rfl).send ?_
    cases ht with
    | probe _ now ho _ dst msg h hm =>
      rcases hm with hm | hm
      · exact .inl ⟨dst, msg, rfl, .inl hm⟩
      · exact .inl ⟨dst, msg, rfl, .inr (.inr (.inr hm))⟩
    | probeBoth _ now ho _ dst p s h => exact .inr ⟨dst, p, s, rfl⟩
    | user dst data _ ho => rcases ho with ho | ho <;> cases ho
  | dial id peer d hr hd => cases hd
  | start seq p a hs hr hw hlt => cases hlt
  | alloc seq hs => exact .same rfl
  | dispatched seq b hlt => cases hlt
  | fail seq p now hp hw hr hlt =>
    refine .same ?_
    rw [terminate_net _ _ _ _ hp]
    unfold discardProbe
    dsimp only
    split <;> rfl
  | done seq p direct payload now' hp hd hw hr hlt =>
    rcases hw with ⟨src, ho, _⟩ | ⟨⟨t, ho⟩, _⟩ <;> cases ho
  | nack src seq now ho => cases ho
  | fan seq p now peers st ho hp hk hph hd hf hl hnd ha hfit hlt =>
    refine ⟨_, rfl, fun t ht => ?_⟩
    obtain ⟨x, _, rfl⟩ := List.mem_map.1 ht
    exact .inl ⟨x, _, rfl, .inr (.inl ⟨_, rfl⟩)⟩
  | fwd seq src p now ho hs hsrc hl hnew => cases ho
  | fwdAnswer seq f hf payload now ho hd => cases ho
  | fwdExpire seq f hf now ho hd => exact ⟨[_], rfl, by simpa using .inl ⟨_, _, rfl, .inr (.inr (.inl ⟨_, rfl⟩))⟩⟩
  | intent i hr => exact .same rfl
  | intentDial i hr hw => exact .same rfl
  | skipId => exact .same rfl
  | unintent id hw => exact .same rfl
  | retire seq =>
    exact .same rfl
  | gossip targets now ho hr hlt => cases hlt
  | leave now f ho hr => cases ho
  | poll ho => cases ho

theorem micros_grow {now : Nat} {a b : Ep I A} (hm : Micros cfg env (.timeout now) false a b) : Grow a b := by
  induction hm with
  | refl => exact .same rfl
  | tail _ h ih => exact ih.trans (micro_grow h)

omit [DecidableEq I] [DecidableEq A] in
theorem push_grow (e : Ep I A) (dst : A) (m : Message I A) (h : ProbeTraffic (.packet dst m)) :
    Grow e (e.pushWithinMtu cfg env dst m).1 := by
  unfold pushWithinMtu
  split
  · exact (Grow.same rfl).send h
  · exact .same rfl

omit [DecidableEq I] [DecidableEq A] in
theorem sendProbe_grow (e : Ep I A) (m : Member I A) (seq : Nat) : Grow e (e.sendProbe cfg env m seq).1 := by
  unfold sendProbe
  dsimp only
  split
  · split
    · exact (Grow.same rfl).send (.inr ⟨_, _, _, rfl⟩)
    · exact (push_grow e _ _ (.inl ⟨_, _, rfl, .inl ⟨_, rfl⟩⟩)).trans
        (push_grow _ _ _ (.inl ⟨_, _, rfl, .inr (.inr (.inr ⟨_, rfl⟩))⟩))
  · exact push_grow e _ _ (.inl ⟨_, _, rfl, .inl ⟨_, rfl⟩⟩)

theorem startProbe_grow (e : Ep I A) (now : Nat) : Grow e (e.startProbe cfg env now).1 := by
  unfold startProbe
  split
  · exact .same rfl
  · split
    · exact .same rfl
    · dsimp only
      split
      · exact .same rfl
      · rename_i m index _ _ seq _
        have h := sendProbe_grow (cfg := cfg) (env := env) { e with
          probeIndex := index
          net := { e.net with
            nextSeq := seq
            probes := e.net.probes.insert seq (Probe.newDirect m.server m.incarnation m.gen now .detection cfg.probeTimeout
              (now + e.core.awareness.scaleTimeout cfg.probeInterval))
            acks := e.net.acks.insert seq { sent := now, kind := .probe, deadline := (Probe.newDirect m.server
              m.incarnation m.gen now .detection cfg.probeTimeout (now + e.core.awareness.scaleTimeout
              cfg.probeInterval)).directDeadline cfg.probeTimeout } } } m seq
        exact h.congr rfl rfl

theorem fireProbe_grow (e : Ep I A) (now : Nat) : Grow e (e.fireProbeScheduler cfg env now) := by
  unfold fireProbeScheduler
  split
  · exact .same rfl
  · split
    · exact .same rfl
    · dsimp only
      split
      · have h := startProbe_grow (cfg := cfg) (env := env) { Ep.resetNodes cfg env
          { e with probesSinceReset := e.probesSinceReset + 1 } now with probesSinceReset := 0 } now
        exact h.congr rfl rfl
      · have h := startProbe_grow (cfg := cfg) (env := env) { e with probesSinceReset := e.probesSinceReset + 1 } now
        exact h.congr rfl rfl

/-! ### The gossip schedule -/

/-- The times of the next gossip round and of the next push/pull. -/
def sched (e : Ep I A) : Option Nat × Option Nat := (e.nextGossip, e.nextPushPull)

omit [DecidableEq I] [DecidableEq A] in
theorem sched_foldl {α : Type} (f : Ep I A → α → Ep I A) (l : List α) (h : ∀ e x, (f e x).sched = e.sched) (e : Ep I A) :
    (l.foldl f e).sched = e.sched := by
  induction l generalizing e with
  | nil => rfl
  | cons x l ih => rw [List.foldl_cons, ih, h]

theorem probeTerminateFailure_sched (e : Ep I A) (seq now : Nat) :
    (e.probeTerminateFailure cfg env seq now).sched = e.sched := by
  unfold probeTerminateFailure; dsimp only; (repeat' split) <;> rfl

theorem pushWithinMtu_sched (e : Ep I A) (dst : A) (m : Message I A) :
    (e.pushWithinMtu cfg env dst m).1.sched = e.sched := by
  unfold pushWithinMtu; split <;> rfl

theorem startReliablePingDirect_sched (e : Ep I A) (id : I) (peer : A) (seq d : Nat) :
    (e.startReliablePingDirect cfg env id peer seq d).1.sched = e.sched := by
  unfold startReliablePingDirect; dsimp only; split <;> rfl

theorem requestDial_sched (e : Ep I A) (d : Option (DialIntent A)) : (e.requestDial d).sched = e.sched := by
  unfold requestDial; split <;> rfl

theorem startReliablePing_sched (e : Ep I A) (id : I) (peer : A) (seq d : Nat) :
    (e.startReliablePing cfg env id peer seq d).1.sched = e.sched := by
  unfold startReliablePing; dsimp only; rw [requestDial_sched, startReliablePingDirect_sched]

theorem askRelays_sched (msg : Message I A) (l : List A) (e : Ep I A) (asked : List A) :
    (askRelays cfg env msg l e asked).1.sched = e.sched := by
  induction l generalizing e asked with
  | nil => rfl
  | cons a as ih => simp only [askRelays]; rw [ih, pushWithinMtu_sched]

theorem fanOutTo_sched (e : Ep I A) (p : Probe I A) (seq now : Nat) (st : Option Nat) (l : List A) :
    (e.fanOutTo cfg env p seq now st l).sched = e.sched := by
  unfold fanOutTo
  dsimp only
  split
  · rw [probeTerminateFailure_sched, askRelays_sched]
  · exact askRelays_sched _ _ _ _

theorem fanOut_sched (e : Ep I A) (seq now : Nat) : (e.fanOut cfg env seq now).sched = e.sched := by
  unfold fanOut
  split
  · rfl
  · dsimp only
    split
    · rw [probeTerminateFailure_sched]; rfl
    · rw [fanOutTo_sched]
      unfold startFallback
      split
      · rfl
      · exact startReliablePing_sched e.tickUp _ _ _ _

theorem advanceProbes_sched (e : Ep I A) (now : Nat) : (e.advanceProbes cfg env now).sched = e.sched := by
  unfold advanceProbes
  dsimp only
  rw [sched_foldl _ _ (fun e s => probeTerminateFailure_sched e s now), sched_foldl _ _ (fun e s => fanOut_sched e s now)]
  rfl

theorem fireExpiredForwards_sched (e : Ep I A) (now : Nat) : (e.fireExpiredForwards env now).sched = e.sched := by
  unfold fireExpiredForwards
  dsimp only
  rw [sched_foldl]
  · rfl
  · intro e x; split <;> rfl

theorem fireExpiredIntents_sched (e : Ep I A) (now : Nat) : (e.fireExpiredIntents env now).sched = e.sched := by
  unfold fireExpiredIntents
  dsimp only
  rw [sched_foldl]
  · rfl
  · intro e x; rfl

theorem timeoutEnds_sched (e : Ep I A) (now : Nat) : (timeoutEnds cfg env e now).sched = e.sched := by
  unfold timeoutEnds
  rw [fireExpiredIntents_sched, fireExpiredForwards_sched, advanceProbes_sched]
  rfl

/-! ### The queues before the round -/

omit [DecidableEq I] [DecidableEq A] in
theorem _root_.Verif.Spec.Keeps.trans {a b c : List (LB (I × Message I A))} (h : Keeps a b) (h2 : Keeps b c) : Keeps a c := by
  intro x hx
  rcases h x hx with h | ⟨y, hy, e1, e2⟩
  · exact h2 x h
  · rcases h2 y hy with h | ⟨z, hz, f1, f2⟩
    · exact .inr ⟨y, h, e1, e2⟩
    · exact .inr ⟨z, hz, f1.trans e1, f2⟩

theorem _root_.Verif.Core.QAdds.keeps {a b : BQueue I (I × Message I A)} (h : QAdds env a b) (ha : QOk env a)
    (hc : b.calls ≤ U64_MAX) : Keeps a.q b.q := by
  induction h with
  | refl => exact fun x hx => .inl hx
  | @queue q' c hb h ih =>
    rw [queue_calls] at hc
    refine (ih (by omega)).trans ?_
    obtain ⟨hi, hg⟩ := h.steps.ok ha (by omega)
    obtain ⟨_, _, _, _, lb, rest, p1, p2, _, e2, e3, _, e5⟩ := hi.queueBroadcast c (by omega)
    intro x hx
    have := p2.mem_iff.1 hx
    rcases List.mem_append.1 this with h1 | h1
    · right
      refine ⟨lb, p1.mem_iff.2 (by simp), ?_, e2⟩
      have := ((e5 x).1 h1).2
      rw [e3]
      simp only [claimOps, Option.some.injEq] at this
      exact this.symm
    · exact .inl (p1.mem_iff.2 (by simp [h1]))

theorem fail_adds (e : Ep I A) (seq now : Nat) :
    QAdds env e.core.bcast (e.probeTerminateFailure cfg env seq now).core.bcast ∧
      (e.probeTerminateFailure cfg env seq now).user = e.user := by
  unfold probeTerminateFailure
  split
  · exact ⟨.refl _, rfl⟩
  · dsimp only
    split
    · split
      · exact ⟨.refl _, rfl⟩
      · refine ⟨?_, rfl⟩
        dsimp only
        split
        · rename_i p _ _ _ _ _
          have := qa_processSuspect (cfg := cfg) (env := env)
            (bump { e.core with awareness := e.core.awareness.recordFailure (severity p) })
            { incarnation := p.targetIncarnation, node := p.target.id, src := cfg.localId } now
          exact this
        · exact .refl _
    · exact ⟨.refl _, rfl⟩

theorem micro_adds {now : Nat} {a b : Ep I A} (hg : Good cfg a.core) (hm : Micro cfg env (.timeout now) false a b) :
    QAdds env a.core.bcast b.core.bcast ∧ b.user = a.user := by
  cases hm with
  | core x hx =>
    refine ⟨qa_act hg x ?_ ?_, rfl⟩
    · intro o l e; subst e; cases hx
    · intro l e; subst e; cases hx
  | aux _ hc hn hf hu =>
    refine ⟨by rw [hc]; exact .refl _, ?_⟩
    rcases hu with hu | ⟨_, _, _, ho, _⟩
    · exact hu
    · cases ho
  | send t ht => exact ⟨.refl _, rfl⟩
  | dial id peer d hr hd => cases hd
  | start seq p a hs hr hw hlt => cases hlt
  | alloc seq hs => exact ⟨.refl _, rfl⟩
  | dispatched seq b hlt => cases hlt
  | fail seq p now hp hw hr hlt => exact fail_adds _ _ _
  | done seq p direct payload now' hp hd hw hr hlt =>
    rcases hw with ⟨src, ho, _⟩ | ⟨⟨t, ho⟩, _⟩ <;> cases ho
  | nack src seq now ho => cases ho
  | fan seq p now peers st ho hp hk hph hd hf hl hnd ha hfit hlt => exact ⟨.refl _, rfl⟩
  | fwd seq src p now ho hs hsrc hl hnew => cases ho
  | fwdAnswer seq f hf payload now ho hd => cases ho
  | fwdExpire seq f hf now ho hd => exact ⟨.refl _, rfl⟩
  | intent i hr => exact ⟨.refl _, rfl⟩
  | intentDial i hr hw => exact ⟨.refl _, rfl⟩
  | skipId => exact ⟨.refl _, rfl⟩
  | unintent id hw => exact ⟨.refl _, rfl⟩
  | retire seq => exact ⟨.refl _, rfl⟩
  | gossip targets now ho hr hlt => cases hlt
  | leave now f ho hr => cases ho
  | poll ho => cases ho

theorem ends_adds {e : Ep I A} (h : Reachable cfg env e) (hl : e.core.lifecycle = .running) (now : Nat) :
    QAdds env e.core.bcast (timeoutEnds cfg env e now).core.bcast ∧ (timeoutEnds cfg env e now).user = e.user := by
  have hn := reachable_netOk h
  have hm := (timeoutEnds_micros (cfg := cfg) (env := env) e now (op := .timeout now) rfl hl hn.pn hn.fn).1
  refine micros_induct (Q := fun b => QAdds env e.core.bcast b.core.bcast ∧ b.user = e.user) hm (reachable_good h) hn
    ⟨.refl _, rfl⟩ ?_
  intro a b hg _ hq hm
  obtain ⟨h1, h2⟩ := micro_adds hg hm
  exact ⟨hq.1.trans h1, h2.trans hq.2⟩

theorem startProbe_user (e : Ep I A) (now : Nat) : (e.startProbe cfg env now).1.user = e.user := by
  unfold startProbe
  split
  · rfl
  · split
    · rfl
    · dsimp only
      split
      · rfl
      · unfold sendProbe pushWithinMtu
        dsimp only
        (repeat' split) <;> rfl

theorem resetNodes_bcast (c : Core I A) (pick : Nat → Nat) (now : Nat) : (c.resetNodes cfg pick now).bcast = c.bcast := by
  unfold Core.resetNodes
  dsimp only
  generalize (c.members.filter (fun m => reapable cfg m now)).map Member.id = ids
  have h0 : (if ids.isEmpty then c else c.bump).bcast = c.bcast := by split <;> rfl
  rw [← h0]
  generalize (if ids.isEmpty then c else c.bump) = c1
  clear h0
  induction ids generalizing c1 with
  | nil => rfl
  | cons id ids ih => rw [List.foldl_cons, ih]

theorem fireProbe_keeps (e : Ep I A) (now : Nat) :
    (e.fireProbeScheduler cfg env now).core.bcast = e.core.bcast ∧ (e.fireProbeScheduler cfg env now).user = e.user ∧
      (e.fireProbeScheduler cfg env now).nextGossip = e.nextGossip := by
  refine ⟨?_, ?_, ?_⟩
  · unfold fireProbeScheduler
    split
    · rfl
    · split
      · rfl
      · dsimp only
        rw [startProbe_core]
        split
        · exact resetNodes_bcast _ _ _
        · rfl
  · unfold fireProbeScheduler
    split
    · rfl
    · split
      · rfl
      · dsimp only
        rw [startProbe_user]
        split <;> rfl
  · unfold fireProbeScheduler
    split
    · rfl
    · split
      · rfl
      · dsimp only
        rw [other_gossip (startProbe_other _ now)]
        split <;> rfl

theorem firePush_keeps (e : Ep I A) (now : Nat) :
    (e.firePushPullScheduler cfg env now).core.bcast = e.core.bcast ∧
      (e.firePushPullScheduler cfg env now).core.members = e.core.members ∧
      (e.firePushPullScheduler cfg env now).user = e.user ∧
      (e.firePushPullScheduler cfg env now).net.transmits = e.net.transmits := by
  unfold firePushPullScheduler startPushPull startPushPullDirect requestDial
  dsimp only
  (repeat' split) <;> exact ⟨rfl, rfl, rfl, rfl⟩

theorem refreshCache_keeps (e : Ep I A) :
    e.refreshCache.core = e.core ∧ e.refreshCache.user = e.user ∧ e.refreshCache.net = e.net := by
  unfold refreshCache
  split <;> exact ⟨rfl, rfl, rfl⟩

/-! ### The multiplier -/

theorem QSteps.mult {a b : BQueue I (I × Message I A)} (h : QSteps env a b) : b.mult = a.mult := by
  induction h with
  | refl => rfl
  | queue b hb _ ih => rw [(BQueue.queueBroadcast_consts _ _).2]; exact ih
  | take n o l _ ih => rw [show ∀ q : BQueue I (I × Message I A), (q.takeMeasured (ops env) n o l).s.mult = q.mult from
      fun q => congrArg Prod.snd (BQueue.takeMeasured_consts q n o l)]; exact ih
  | one n l _ ih =>
    rw [show ∀ q : BQueue I (I × Message I A), (q.takeOne (ops env) n l).s.mult = q.mult from
      fun q => congrArg Prod.snd (BQueue.takeOne_consts q n l)]; exact ih

theorem reachable_mult {e : Ep I A} (h : Reachable cfg env e) : e.core.bcast.mult = cfg.retransmitMult :=
  (reachable_induct (P := fun e => Good cfg e.core ∧ e.core.bcast.mult = cfg.retransmitMult) h
    (fun now e0 h0 => by
      rw [tryNew_core h0]
      refine ⟨good_init now, ?_⟩
      have : QSteps env (BQueue.new cfg.retransmitMult) (Core.init cfg env now).bcast :=
        .queue _ (by simp [IsClaim, aliveOf]) (.refl _)
      rw [QSteps.mult this]; rfl)
    (fun e op _ hg => ⟨(step_acts e op).good hg.1,
      (step_acts e op).inductGood (Q := fun c => c.bcast.mult = cfg.retransmitMult) hg.1 hg.2
        (fun _ x _ hc hq => (QSteps.mult (qs_act hc x)).trans hq)⟩)).2

/-! ### The drain -/

theorem find_first {q : List (LB (I × Message I A))} (hs : LB.Sorted q) {l : Nat} {z : LB (I × Message I A)}
    (hz : q.find? (fun x => x.msgLen ≤ l) = some z) : ∀ y ∈ q, y ≠ z → y.msgLen ≤ l → Preferred z y := by
  induction q with
  | nil => cases hz
  | cons a q ih =>
    obtain ⟨h1, h2⟩ := List.pairwise_cons.1 hs
    rw [List.find?_cons] at hz
    intro y hy hne hl
    split at hz
    · cases hz
      rcases List.mem_cons.1 hy with rfl | hy
      · exact absurd rfl hne
      · exact (LB.before_iff _ _).1 (h1 y hy)
    · rename_i hf
      rcases List.mem_cons.1 hy with rfl | hy
      · simp [hl] at hf
      · exact ih h2 hz y hy hne hl

omit [DecidableEq I] [DecidableEq A] in
theorem preferred_asymm {x y : LB (I × Message I A)} (h : Preferred x y) (h2 : Preferred y x) : False := by
  simp only [Preferred, Entry.transmits, Entry.size, Entry.stamp] at h h2
  omega

theorem nearMtu_iff {q : BQueue I (I × Message I A)} (hs : LB.Sorted q.q) :
    nearMtu cfg q = true ↔ ∃ x ∈ q.q, x.msgLen ≤ cfg.gossipMtu ∧
      (∀ y ∈ q.q, y ≠ x → y.msgLen ≤ cfg.gossipMtu → Preferred x y) ∧
      room cfg < x.msgLen + COMPOUND_MAX_PART_PREFIX_LEN := by
  unfold nearMtu BQueue.peekFirstSendable
  cases hz : q.q.find? (fun x => x.msgLen ≤ cfg.gossipMtu) with
  | none =>
    simp only [Option.map_none, Bool.false_eq_true, false_iff]
    rintro ⟨x, hx, hl, _⟩
    have := List.find?_eq_none.1 hz x hx
    simp [hl] at this
  | some z =>
    have hm := List.mem_of_find?_eq_some hz
    have hl : z.msgLen ≤ cfg.gossipMtu := by simpa using List.find?_some hz
    have hf := find_first hs hz
    simp only [Option.map_some, decide_eq_true_eq]
    constructor
    · intro h
      exact ⟨z, hm, hl, hf, h⟩
    · rintro ⟨x, hx, h1, h2, h3⟩
      by_cases e : x = z
      · rw [← e]; exact h3
      · exact (preferred_asymm (h2 z hm (fun h => e h.symm) hl) (hf x hx e h1)).elim

/-- What a gossip round takes out of the queues. -/
theorem drain_chosen {e : Ep I A} (hq : QOk env e.core.bcast) (hc : e.core.bcast.calls ≤ U64_MAX)
    (hm : e.core.bcast.mult = cfg.retransmitMult) (hu : UserFine cfg e) (huc : ∀ t ∈ e.user.tiers, t.calls ≤ U64_MAX) :
    ∃ (claims : List (LB (I × Message I A))) (user : List (List (LB Bytes))) (left : Nat),
      (e.drainGossip cfg env).2 = claims.map (fun x => x.broadcast.2) ++
        user.flatten.map (fun x => Message.userData x.broadcast) ∧
      ClaimsChosen cfg e.core.bcast.q claims left ∧
      Taken (retransmitLimit cfg.retransmitMult e.core.members.length) e.core.bcast.q claims
        (e.drainGossip cfg env).1.core.bcast.q ∧
      UsersChosen left (retransmitLimit cfg.retransmitMult e.core.members.length) (userQueues e) user
        (userQueues (e.drainGossip cfg env).1) := by
  have hU : ∀ m, (ops env).encodedLen m ≤ U64_MAX := fun m => wireLen_le env.CI env.CA m
  obtain ⟨hi, hg⟩ := hq hc
  have hnear := nearMtu_iff (cfg := cfg) hi.sorted
  unfold drainGossip
  dsimp only
  by_cases hn : nearMtu cfg e.core.bcast = true
  · rw [if_pos hn]
    obtain ⟨x, hx, h1, h2, h3⟩ := hnear.1 hn
    obtain ⟨D, hs⟩ := BQueue.takeOne_spec hU hi (by omega) e.core.members.length cfg.gossipMtu
    rw [hm] at D
    refine ⟨_, [], 0, (List.append_nil _).symm, ?_, UserBroadcasts.drainOk_taken D, ?_⟩
    · rcases hs with ⟨hs, hall⟩ | ⟨z, hs, hz, hl, hf⟩
      · have := hall x hx; omega
      · have e1 : z = x := by
          by_cases e : z = x
          · exact e
          · exact (preferred_asymm (h2 z hz e hl) (hf x hx (fun h => e h.symm) h1)).elim
        show ClaimsChosen cfg _ (e.core.bcast.takeOne (ops env) e.core.members.length cfg.gossipMtu).sent 0
        rw [hs, e1]
        exact .lone x hx h1 h2 h3
    · exact ⟨Nat.zero_le _, rfl, fun i s h => by simp at h, fun _ => rfl, fun i t ht =>
        ⟨t, ht, by simpa using UserBroadcasts.taken_nil _ _⟩⟩
  · rw [if_neg hn]
    obtain ⟨D, hs⟩ := BQueue.takeMeasured_spec hU hi (by omega) e.core.members.length COMPOUND_MAX_PART_PREFIX_LEN
      (compoundBudget cfg)
    rw [hm] at D
    have hch := fun l => UserBroadcasts.take_chosen bytes_small hu huc e.core.members.length l
    have hmany : ClaimsChosen cfg e.core.bcast.q (e.core.bcast.takeMeasured (ops env) e.core.members.length
        COMPOUND_MAX_PART_PREFIX_LEN (compoundBudget cfg)).sent (compoundBudget cfg -
        (e.core.bcast.takeMeasured (ops env) e.core.members.length COMPOUND_MAX_PART_PREFIX_LEN
          (compoundBudget cfg)).used) := by
      rw [D.used]
      refine .many _ ?_ hs
      intro x hx h1 h2
      by_cases h3 : x.msgLen + COMPOUND_MAX_PART_PREFIX_LEN ≤ room cfg
      · exact h3
      · exact (hn (hnear.2 ⟨x, hx, h1, h2, by omega⟩)).elim
    by_cases he : ((e.core.bcast.takeMeasured (ops env) e.core.members.length COMPOUND_MAX_PART_PREFIX_LEN
        (compoundBudget cfg)).sent.map (fun x => x.broadcast.2)).isEmpty = true
    · rw [if_pos he]
      have hnil : (e.core.bcast.takeMeasured (ops env) e.core.members.length COMPOUND_MAX_PART_PREFIX_LEN
        (compoundBudget cfg)).sent = [] := by simpa using he
      have h0 : (e.core.bcast.takeMeasured (ops env) e.core.members.length COMPOUND_MAX_PART_PREFIX_LEN
        (compoundBudget cfg)).used = 0 := by rw [D.used, hnil]; rfl
      rw [h0] at hmany
      refine ⟨_, _, _, ?_, hmany, UserBroadcasts.drainOk_taken D, hch _⟩
      rw [hnil]
      show List.map _ (List.map _ _) = _
      rw [List.map_map]
      rfl
    · rw [if_neg he]
      refine ⟨_, _, _, ?_, hmany, UserBroadcasts.drainOk_taken D, hch _⟩
      show _ ++ List.map _ (List.map _ _) = _
      rw [List.map_map]
      rfl

/-! ### The round -/

/-- A gossip round when it is due. -/
theorem fireGossip_spec {e : Ep I A} (hq : QOk env e.core.bcast) (hc : e.core.bcast.calls ≤ U64_MAX)
    (hm : e.core.bcast.mult = cfg.retransmitMult) (hu : UserFine cfg e) (huc : ∀ t ∈ e.user.tiers, t.calls ≤ U64_MAX)
    {d now : Nat} (hd : e.nextGossip = some d) (hn : d ≤ now) :
    ∃ (targets : List A) (claims : List (LB (I × Message I A))) (user : List (List (LB Bytes))),
      (e.fireGossipScheduler cfg env now).net.transmits = e.net.transmits ++ targets.flatMap (fun a => carrying a
        (claims.map (fun x => x.broadcast.2) ++ user.flatten.map (fun x => Message.userData x.broadcast))) ∧
      (∃ rest, (gossipPeers cfg e now).Perm (targets ++ rest)) ∧
      targets.length = min cfg.gossipNodes (gossipPeers cfg e now).length ∧
      (e.fireGossipScheduler cfg env now).nextGossip = some (now + cfg.gossipInterval) ∧
      (e.fireGossipScheduler cfg env now).core.members = e.core.members ∧
      ((targets = [] ∧ (e.fireGossipScheduler cfg env now).core.bcast = e.core.bcast ∧
          (e.fireGossipScheduler cfg env now).user = e.user) ∨
        ∃ left, ClaimsChosen cfg e.core.bcast.q claims left ∧
          Taken (retransmitLimit cfg.retransmitMult e.core.members.length) e.core.bcast.q claims
            (e.fireGossipScheduler cfg env now).core.bcast.q ∧
          UsersChosen left (retransmitLimit cfg.retransmitMult e.core.members.length) (userQueues e) user
            (userQueues (e.fireGossipScheduler cfg env now))) := by
  unfold fireGossipScheduler
  rw [hd]
  dsimp only
  rw [if_neg (by omega), gossipPeers_eq]
  obtain ⟨rest, hp⟩ := pickRandom_perm (gossipPeers cfg e now) cfg.gossipNodes (env.tape e.tick)
  have hl := pickRandom_length (gossipPeers cfg e now) cfg.gossipNodes (env.tape e.tick)
  generalize pickRandom (gossipPeers cfg e now) cfg.gossipNodes (env.tape e.tick) = targets at hp hl
  by_cases ht : targets.isEmpty = true
  · rw [if_pos ht]
    have ht : targets = [] := by simpa using ht
    subst ht
    exact ⟨[], [], [], by simp [tickUp], ⟨rest, hp⟩, hl, rfl, rfl, .inl ⟨rfl, rfl, rfl⟩⟩
  · rw [if_neg ht]
    obtain ⟨claims, user, left, h1, h2, h3, h4⟩ := drain_chosen (cfg := cfg) (env := env) (e := e.tickUp) hq hc hm hu huc
    refine ⟨targets, claims, user, ?_, ⟨rest, hp⟩, hl, rfl, ?_, .inr ⟨left, h2, ?_, ?_⟩⟩
    · rw [← h1]
      show (sendAll _ _ _).net.transmits = _
      rw [sendAll_transmits, (drainGossip_net _).1]
      rfl
    · show (sendAll _ _ _).core.members = _
      rw [sendAll_core, drainGossip_members]
      rfl
    · show Taken _ _ _ (sendAll _ _ _).core.bcast.q
      rw [sendAll_core]
      exact h3
    · have : userQueues ((e.tickUp.drainGossip cfg env).1.sendAll targets (e.tickUp.drainGossip cfg env).2) =
          userQueues (e.tickUp.drainGossip cfg env).1 := by
        unfold userQueues
        rw [sendAll_user]
      show UsersChosen _ _ _ _ (userQueues ((e.tickUp.drainGossip cfg env).1.sendAll targets (e.tickUp.drainGossip cfg env).2))
      rw [this]
      exact h4

theorem fireGossip_calls (e : Ep I A) (now : Nat) :
    (e.fireGossipScheduler cfg env now).core.bcast.calls = e.core.bcast.calls := by
  have hd : ∀ e : Ep I A, (e.drainGossip cfg env).1.core.bcast.calls = e.core.bcast.calls := by
    intro e
    unfold drainGossip
    dsimp only
    split
    · exact one_calls _ _ _
    · split <;> exact take_calls _ _ _ _
  unfold fireGossipScheduler
  split
  · rfl
  · split
    · rfl
    · dsimp only
      split
      · rfl
      · show (sendAll _ _ _).core.bcast.calls = _
        rw [sendAll_core, hd]
        rfl

theorem fireGossip_idle {e : Ep I A} {now : Nat} (hd : ∀ d, e.nextGossip = some d → now < d) :
    e.fireGossipScheduler cfg env now = e := by
  unfold fireGossipScheduler
  split
  · rfl
  · rename_i d h
    rw [if_pos (hd d h)]

/-- What follows the gossip scheduler. -/
theorem after_gossip (e : Ep I A) (now : Nat) :
    ((e.firePushPullScheduler cfg env now).refreshCache).core.bcast = e.core.bcast ∧
    ((e.firePushPullScheduler cfg env now).refreshCache).core.members = e.core.members ∧
    ((e.firePushPullScheduler cfg env now).refreshCache).user = e.user ∧
    ((e.firePushPullScheduler cfg env now).refreshCache).net.transmits = e.net.transmits ∧
    ((e.firePushPullScheduler cfg env now).refreshCache).nextGossip = e.nextGossip := by
  obtain ⟨h1, h2, h3, h4⟩ := firePush_keeps (cfg := cfg) (env := env) e now
  obtain ⟨k1, k2, k3⟩ := refreshCache_keeps (e.firePushPullScheduler cfg env now)
  have k4 : (e.firePushPullScheduler cfg env now).refreshCache.nextGossip = e.nextGossip := by
    rw [← (push_next (cfg := cfg) (env := env) e now).2.1]
    unfold refreshCache
    split <;> rfl
  exact ⟨by rw [k1, h1], by rw [k1, h2], by rw [k2, h3], by rw [k3, h4], k4⟩

/-- What precedes the gossip scheduler. -/
theorem before_gossip {e : Ep I A} (h : Reachable cfg env e) (hl : e.core.lifecycle = .running) (now : Nat) :
    ∃ b : Ep I A, (e.step cfg env (.timeout now)).1 =
        ((b.fireGossipScheduler cfg env now).firePushPullScheduler cfg env now).refreshCache ∧
      Grow e b ∧ QAdds env e.core.bcast b.core.bcast ∧ b.user = e.user ∧ b.nextGossip = e.nextGossip := by
  refine ⟨(timeoutEnds cfg env e now).fireProbeScheduler cfg env now, handleTimeout_eq e now hl, ?_, ?_, ?_, ?_⟩
  · have hn := reachable_netOk h
    exact (micros_grow (timeoutEnds_micros (cfg := cfg) (env := env) e now (op := .timeout now) rfl hl hn.pn hn.fn).1).trans
      (fireProbe_grow _ _)
  · rw [(fireProbe_keeps _ _).1]; exact (ends_adds h hl now).1
  · rw [(fireProbe_keeps _ _).2.1]; exact (ends_adds h hl now).2
  · rw [(fireProbe_keeps _ _).2.2]
    exact congrArg Prod.fst (timeoutEnds_sched e now)

end Verif.Ep
