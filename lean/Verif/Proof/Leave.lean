import Verif.Proof.Cache
import Verif.Proof.Outcome
import Verif.Spec.Node
/-
Leaving: what the leaving call does, and that nothing happens after it.
-/
namespace Verif.Ep
open Verif Core Spec
variable {I A : Type} [DecidableEq I] [DecidableEq A]
variable {cfg : Cfg I A} {env : Env I A}

/-! ### After leaving -/

theorem processDead_frozen {c : Core I A} (hg : Good cfg c) (hl : c.lifecycle ≠ .running) (d : BadState I) (now : Nat) :
    c.processDead cfg env d now = c := by
  have hleft : c.lifecycle = .left := by
    have := hg.settled
    cases h : c.lifecycle <;> simp_all
  unfold Core.processDead
  split
  · rfl
  · rename_i m hm
    split
    · rfl
    · split
      · rfl
      · rename_i h1 h2
        split
        · rename_i h3
          exfalso
          obtain ⟨m', hm', hlo⟩ := hg.inv.loc
          rw [h3, hm'] at hm; cases hm
          have := hlo.state
          rw [hleft] at this
          simp at this
          exact h2 (.inr this)
        · first | rfl | (split <;> first | rfl | (rename_i h4; exact absurd hl h4))

theorem mergeOne_frozen {e : Ep I A} (hg : Good cfg e.core) (hl : e.core.lifecycle ≠ .running) (now : Nat)
    (r : PushNodeState I A) : ∃ t, e.mergeOne cfg env now r = { e with tick := t } := by
  unfold mergeOne
  split
  · refine ⟨e.tick + 1, ?_⟩
    unfold Ep.processAlive Core.processAlive
    rw [if_pos hl]
  · exact ⟨e.tick, by dsimp only; rw [processDead_frozen hg hl]⟩
  · exact ⟨e.tick, by dsimp only; unfold Core.processSuspect; rw [if_pos hl]⟩
  · exact ⟨e.tick, by dsimp only; unfold Core.processSuspect; rw [if_pos hl]⟩
  · exact ⟨e.tick, rfl⟩

theorem mergeState_frozen {e : Ep I A} (hg : Good cfg e.core) (hl : e.core.lifecycle ≠ .running) (now : Nat)
    (rs : List (PushNodeState I A)) : ∃ t, e.mergeState cfg env rs now = { e with tick := t } := by
  unfold mergeState
  induction rs generalizing e with
  | nil => exact ⟨e.tick, rfl⟩
  | cons r rs ih =>
    rw [List.foldl_cons]
    obtain ⟨t, ht⟩ := mergeOne_frozen (env := env) hg hl now r
    rw [ht]
    obtain ⟨t', ht'⟩ := ih (e := { e with tick := t }) hg hl
    exact ⟨t', ht'⟩

/-- What stays the same in a node that is not running, whatever call other than polling is made. -/
structure Frozen (op : Op I A) (a b : Ep I A) : Prop where
  lifecycle : b.core.lifecycle = a.core.lifecycle
  members : (∀ now, op ≠ .resetNodes now) → b.core.members = a.core.members
  transmits : op ≠ .pollTransmit → b.net.transmits = a.net.transmits
  flush : op ≠ .pollTransmit → b.leaveFlush = a.leaveFlush
  left : op ≠ .pollTransmit → op ≠ .pollEvent → b.core.events.countP isLeftCluster = a.core.events.countP isLeftCluster
  dials : (∀ ev ∈ a.core.events, ev.isDial = false) → ∀ ev ∈ b.core.events, ev.isDial = false

omit [DecidableEq I] [DecidableEq A] in
theorem Frozen.refl (op : Op I A) (a : Ep I A) : Frozen op a a :=
  ⟨rfl, fun _ => rfl, fun _ => rfl, fun _ => rfl, fun _ _ => rfl, fun h => h⟩

omit [DecidableEq I] [DecidableEq A] in
theorem Frozen.of {op : Op I A} {a b : Ep I A} (h1 : b.core.lifecycle = a.core.lifecycle)
    (h2 : b.core.members = a.core.members) (h3 : b.net.transmits = a.net.transmits) (h4 : b.leaveFlush = a.leaveFlush)
    (h5 : b.core.events = a.core.events) : Frozen op a b :=
  ⟨h1, fun _ => h2, fun _ => h3, fun _ => h4, fun _ _ => by rw [h5], fun h => by rw [h5]; exact h⟩

omit [DecidableEq I] [DecidableEq A] in
theorem dropIntent_transmits (n : Net I A) (id : Nat) : (dropIntent n id).transmits = n.transmits := by
  unfold dropIntent
  split
  · rfl
  · dsimp only
    split <;> rfl

theorem resetNodes_events (c : Core I A) (pick : Nat → Nat) (now : Nat) :
    (c.resetNodes cfg pick now).events = c.events := by
  unfold Core.resetNodes
  dsimp only
  generalize (c.members.filter (fun m => reapable cfg m now)).map Member.id = ids
  have h0 : (if ids.isEmpty then c else c.bump).events = c.events := by split <;> rfl
  generalize (if ids.isEmpty then c else c.bump) = c1 at *
  rw [← h0]; clear h0
  induction ids generalizing c1 with
  | nil => rfl
  | cons id ids ih => simp only [List.foldl_cons]; rw [ih]

theorem startPushPullDirect_frozen {e : Ep I A} (hl : e.core.lifecycle ≠ .running) (peer : A) (kind : PushPullKind)
    (now : Nat) : e.startPushPullDirect cfg env peer kind now =
      ({ e with net := { e.net with nextStreamId := e.net.nextStreamId + 1 } }, e.net.nextStreamId, none) := by
  unfold startPushPullDirect
  simp [isRunning, hl]

theorem startReliablePingDirect_frozen {e : Ep I A} (hl : e.core.lifecycle ≠ .running) (peerId : I) (peer : A)
    (seq d : Nat) : e.startReliablePingDirect cfg env peerId peer seq d =
      ({ e with net := { e.net with nextStreamId := e.net.nextStreamId + 1 } }, e.net.nextStreamId, none) := by
  unfold startReliablePingDirect
  simp [isRunning, hl]

theorem frozen_step {e : Ep I A} (hg : Good cfg e.core) (hl : e.core.lifecycle ≠ .running) (op : Op I A) :
    Frozen op e (e.step cfg env op).1 := by
  have hrun : e.isRunning = false := by simp [isRunning, hl]
  cases op with
  | packet src msg now => simp only [step, handlePacket, if_pos hl]; exact .refl _ _
  | timeout now => simp only [step, handleTimeout, if_pos hl]; exact .refl _ _
  | streamEvent ev now =>
    simp only [step]
    unfold handleStreamEvent
    split <;> (try rw [if_pos hl]) <;> exact .refl _ _
  | mergeState remote now =>
    obtain ⟨t, ht⟩ := mergeState_frozen (env := env) hg hl now remote
    simp only [step, ht]
    exact .of rfl rfl rfl rfl rfl
  | ping node now => simp only [step, Ep.ping, hrun]; exact .refl _ _
  | startProbe now => simp only [step, Ep.startProbe, hrun]; exact .refl _ _
  | startPushPull peer kind now =>
    simp only [step, Ep.startPushPull, startPushPullDirect_frozen hl]
    exact .of rfl rfl rfl rfl rfl
  | startPushPullDirect peer kind now =>
    simp only [step, startPushPullDirect_frozen hl]
    exact .of rfl rfl rfl rfl rfl
  | startReliablePing peerId peer seq d =>
    simp only [step, Ep.startReliablePing, startReliablePingDirect_frozen hl]
    exact .of rfl rfl rfl rfl rfl
  | startReliablePingDirect peerId peer seq d =>
    simp only [step, startReliablePingDirect_frozen hl]
    exact .of rfl rfl rfl rfl rfl
  | startUserMessage peer payload now =>
    simp only [step, Ep.startUserMessage, Ep.startUserMessageDirect, hrun]; exact .refl _ _
  | startUserMessageDirect peer payload now =>
    simp only [step, Ep.startUserMessageDirect, hrun]; exact .refl _ _
  | dialSucceeded id now =>
    simp only [step, Ep.dialSucceeded]
    split
    · exact .of rfl rfl rfl rfl rfl
    · rw [if_pos hl]
      split <;> split <;> exact .of rfl rfl rfl rfl rfl
  | dialFailed id =>
    exact .of rfl rfl (dropIntent_transmits _ _) rfl rfl
  | acceptStream src now => simp only [step, Ep.acceptStream, hrun]; exact .refl _ _
  | startScheduling now => simp only [step, Ep.startScheduling, if_pos hl]; exact .refl _ _
  | resetNodes now =>
    have hl' : (e.core.resetNodes cfg (env.tape e.tick) now).lifecycle = e.core.lifecycle := resetNodes_lifecycle _ _ _
    have he : (e.core.resetNodes cfg (env.tape e.tick) now).events = e.core.events := resetNodes_events _ _ _
    refine ⟨hl', fun h => absurd rfl (h now), fun _ => rfl, fun _ => rfl, fun _ _ => ?_, fun h => ?_⟩
    · show (e.core.resetNodes cfg (env.tape e.tick) now).events.countP isLeftCluster = _
      rw [he]
    · show ∀ ev ∈ (e.core.resetNodes cfg (env.tape e.tick) now).events, _
      rw [he]; exact h
  | leave now f => simp only [step, leaveWith, if_pos hl]; exact .refl _ _
  | updateMeta md => simp only [step, Ep.updateMeta, hrun]; exact .refl _ _
  | setAckPayload b => simp only [step, Ep.setAckPayload, hrun]; exact .refl _ _
  | setLocalState b => simp only [step, Ep.setLocalState, hrun]; exact .refl _ _
  | setResponseCompression =>
    simp only [step, Ep.setResponseCompression, refreshCache]
    split <;> exact .of rfl rfl rfl rfl rfl
  | queueUser rank b => simp only [step, Ep.queueUser, hrun]; exact .refl _ _
  | sendUserPacket dst b => simp only [step, Ep.sendUserPacket, hrun]; exact .refl _ _
  | sendUserPackets dst bs => simp only [step, Ep.sendUserPackets, hrun]; exact .refl _ _
  | degradeHealth s => exact .of rfl rfl rfl rfl rfl
  | improveHealth => exact .of rfl rfl rfl rfl rfl
  | disableReliablePing id => exact .of rfl rfl rfl rfl rfl
  | enableReliablePing id => exact .of rfl rfl rfl rfl rfl
  | drainBroadcasts => exact .of rfl rfl rfl rfl rfl
  | external r =>
    refine ⟨rfl, fun _ => rfl, fun _ => rfl, fun _ => rfl, fun _ _ => ?_, fun h ev hev => ?_⟩
    · show (e.core.events ++ [Event.external r]).countP isLeftCluster = _
      rw [List.countP_append]; rfl
    · rcases List.mem_append.1 (show ev ∈ e.core.events ++ [Event.external r] from hev) with h' | h'
      · exact h ev h'
      · rw [List.mem_singleton.1 h']; rfl
  | pollEvent =>
    simp only [step, Ep.pollEvent]
    split
    · exact .refl _ _
    · rename_i ev rest he
      exact ⟨rfl, fun _ => rfl, fun _ => rfl, fun _ => rfl, fun _ h => absurd rfl h,
        fun h ev' h' => h ev' (by rw [he]; exact List.mem_cons_of_mem _ h')⟩
  | pollTransmit =>
    simp only [step, Ep.pollTransmit]
    split
    · exact .refl _ _
    · dsimp only
      split
      · exact ⟨rfl, fun _ => rfl, fun h => absurd rfl h, fun h => absurd rfl h, fun h => absurd rfl h, fun h => h⟩
      · split
        · refine ⟨rfl, fun _ => rfl, fun h => absurd rfl h, fun h => absurd rfl h, fun h => absurd rfl h, fun h ev hev => ?_⟩
          rcases List.mem_append.1 (show ev ∈ e.core.events ++ [Event.leftCluster] from hev) with h' | h'
          · exact h ev h'
          · rw [List.mem_singleton.1 h']; rfl
        · exact ⟨rfl, fun _ => rfl, fun h => absurd rfl h, fun h => absurd rfl h, fun h => absurd rfl h, fun h => h⟩
  | sieveDials =>
    refine ⟨rfl, fun _ => rfl, fun _ => rfl, fun _ => rfl, fun _ _ => ?_, fun h ev hev => h ev (List.mem_filter.1 hev).1⟩
    show (e.core.events.filter (fun ev => !ev.isDial)).countP isLeftCluster = _
    rw [List.countP_filter]
    refine List.countP_congr fun ev _ => ?_
    cases ev <;> simp [isLeftCluster, Event.isDial]
  | requeueDial id peer d => simp only [step, Ep.requeueDial, hrun]; exact .refl _ _

/-! ### After leaving -/

/-- A node that has left: what is still to be sent is farewells, and the report is due when the last one is handed over. -/
structure Gone (e : Ep I A) : Prop where
  lifecycle : e.core.lifecycle ≠ .running
  some : ∀ n, e.leaveFlush = some n → n = e.net.transmits.length ∧ 0 < n
  none : e.leaveFlush = none → e.net.transmits = []
  dials : ∀ ev ∈ e.core.events, ev.isDial = false

/-- The datagram a call hands over. -/
def sentOf : Out I A → Option (Transmit I A)
  | .transmit t => t
  | _ => none

theorem sent_eq (e : Ep I A) (ops : List (Op I A)) :
    sent cfg env e ops = (outs cfg env e ops).filterMap sentOf := by
  unfold sent
  congr 1

/-- One until the report that leaving is complete. -/
def due (e : Ep I A) : Nat := if e.leaveFlush.isSome then 1 else 0

theorem gone_step {e : Ep I A} (hg : Good cfg e.core) (h : Gone e) (op : Op I A) :
    Gone (e.step cfg env op).1 ∧
    (sentOf (e.step cfg env op).2).toList ++ (e.step cfg env op).1.net.transmits = e.net.transmits ∧
    ((eventOf (e.step cfg env op).2).toList ++ (e.step cfg env op).1.core.events).countP isLeftCluster +
      due (e.step cfg env op).1 = e.core.events.countP isLeftCluster + due e := by
  have hf := frozen_step (env := env) hg h.lifecycle op
  have h1 : (e.step cfg env op).1.core.lifecycle ≠ .running := by rw [hf.lifecycle]; exact h.lifecycle
  have h4 := hf.dials h.dials
  by_cases hp : op = .pollTransmit
  · subst hp
    clear hf
    cases hq : e.net.transmits with
    | nil =>
      have : e.step cfg env .pollTransmit = (e, .transmit none) := by simp only [step, Ep.pollTransmit, hq]
      rw [this]
      exact ⟨h, by simp [sentOf, hq], by simp [eventOf]⟩
    | cons t rest =>
      cases hn : e.leaveFlush with
      | none => have := h.none hn; rw [hq] at this; cases this
      | some n =>
        obtain ⟨h2, h3⟩ := h.some n hn
        rw [hq, List.length_cons] at h2
        by_cases hle : n ≤ 1
        · have hr : rest = [] := List.length_eq_zero_iff.1 (by omega)
          have hst : e.step cfg env .pollTransmit = ({ ({ e with net := { e.net with transmits := rest } } : Ep I A).emit
              .leftCluster with leaveFlush := none }, .transmit (some t)) := by
            simp only [step, Ep.pollTransmit, hq, hn, if_pos hle]
          rw [hst] at h1 h4 ⊢
          refine ⟨⟨h1, nofun, fun _ => hr, h4⟩, rfl, ?_⟩
          show ([] ++ (e.core.events ++ [Event.leftCluster])).countP isLeftCluster + 0 = _ + due e
          rw [List.nil_append, List.countP_append, due, hn]
          rfl
        · have hst : e.step cfg env .pollTransmit = ({ e with
              net := { e.net with transmits := rest }, leaveFlush := some (n - 1) }, .transmit (some t)) := by
            simp only [step, Ep.pollTransmit, hq, hn, if_neg hle]
          rw [hst] at h1 h4 ⊢
          refine ⟨⟨h1, fun m hm => ?_, nofun, h4⟩, rfl, ?_⟩
          · cases hm
            show n - 1 = rest.length ∧ _
            omega
          · show ([] ++ e.core.events).countP isLeftCluster + 1 = _ + due e
            rw [List.nil_append, due, hn]
            rfl
  · have h2 := hf.transmits hp
    have h3 := hf.flush hp
    refine ⟨⟨h1, ?_, ?_, h4⟩, ?_, ?_⟩
    · rw [h2, h3]; exact h.some
    · rw [h2, h3]; exact h.none
    · rw [h2]
      have : sentOf (e.step cfg env op).2 = none := by cases op <;> first | rfl | exact absurd rfl hp
      rw [this]; rfl
    · have hd : due (e.step cfg env op).1 = due e := by unfold due; rw [h3]
      rw [hd]
      by_cases he : op = .pollEvent
      · subst he
        cases hq : e.core.events with
        | nil =>
          have : e.step cfg env .pollEvent = (e, .event none) := by simp only [step, Ep.pollEvent, hq]
          rw [this]
          simp [eventOf, hq]
        | cons ev rest =>
          have : e.step cfg env .pollEvent =
              ({ e with core := { e.core with events := rest } }, .event (some ev)) := by
            simp only [step, Ep.pollEvent, hq]
          rw [this]
          rfl
      · have : eventOf (e.step cfg env op).2 = none := by cases op <;> first | rfl | exact absurd rfl he
        rw [this, ← hf.left hp he]; rfl

theorem gone_run {e : Ep I A} (hr : Reachable cfg env e) (h : Gone e) (ops : List (Op I A)) :
    Gone (run cfg env e ops) ∧ sent cfg env e ops ++ (run cfg env e ops).net.transmits = e.net.transmits ∧
    leftReports cfg env e ops + due (run cfg env e ops) = e.core.events.countP isLeftCluster + due e := by
  unfold leftReports
  rw [sent_eq, reported_eq]
  induction ops generalizing e with
  | nil => exact ⟨h, rfl, rfl⟩
  | cons op ops ih =>
    obtain ⟨h1, h2, h3⟩ := gone_step (env := env) (reachable_good hr) h op
    obtain ⟨i1, i2, i3⟩ := ih (reachable_step hr op) h1
    have hrun : run cfg env e (op :: ops) = run cfg env (e.step cfg env op).1 ops := rfl
    rw [hrun]
    refine ⟨i1, ?_, ?_⟩
    · rw [← h2, ← i2]
      simp only [outs, List.filterMap_cons]
      cases sentOf (e.step cfg env op).2 <;> simp
    · rw [← h3, List.countP_append, List.countP_append]
      rw [List.countP_append] at i3
      simp only [outs, List.filterMap_cons]
      cases eventOf (e.step cfg env op).2 <;> simp [List.countP_cons] <;> omega

theorem gone_members {e : Ep I A} (hr : Reachable cfg env e) (h : Gone e) (ops : List (Op I A))
    (ho : ∀ now, Op.resetNodes now ∉ ops) : (run cfg env e ops).core.members = e.core.members := by
  induction ops generalizing e with
  | nil => rfl
  | cons op ops ih =>
    have hrun : run cfg env e (op :: ops) = run cfg env (e.step cfg env op).1 ops := rfl
    rw [hrun, ih (reachable_step hr op) (gone_step (reachable_good hr) h op).1
      (fun now hm => ho now (List.mem_cons_of_mem _ hm))]
    exact (frozen_step (reachable_good hr) h.lifecycle op).members
      (fun now hm => ho now (by rw [hm]; exact List.mem_cons_self ..))

/-! ### Before leaving -/

theorem terminate_flush (e : Ep I A) (seq now : Nat) :
    (e.probeTerminateFailure cfg env seq now).leaveFlush = e.leaveFlush := by
  unfold probeTerminateFailure
  split
  · rfl
  · dsimp only
    split <;> (try split) <;> (try split) <;> rfl

theorem complete_flush (e : Ep I A) (seq : Nat) (d : Bool) (pl : Bytes) (now : Nat) :
    (e.completeProbeSuccess cfg env seq d pl now).leaveFlush = e.leaveFlush := by
  unfold completeProbeSuccess
  split
  · rfl
  · dsimp only
    split
    · exact terminate_flush _ _ _
    · split <;> (try split) <;> rfl

omit [DecidableEq I] in
theorem handleNack_flush (e : Ep I A) (src : A) (seq now : Nat) :
    (e.handleNack src seq now).leaveFlush = e.leaveFlush := by
  unfold handleNack
  split
  · rfl
  · split <;> (try split) <;> (try split) <;> rfl

theorem leave_lifecycle {e : Ep I A} (hg : Good cfg e.core) (hl : e.core.lifecycle = .running) (now : Nat) (f : Option Bytes) :
    (e.leaveWith cfg env now f).core.lifecycle = .left := by
  have h0 := (hg.inv.beginLeave (env := env) hl now).2
  unfold leaveWith
  rw [if_neg (by simp [hl])]
  dsimp only
  split
  · exact h0
  · show (sendFarewells _ _ _ _).core.lifecycle = _
    rw [sendFarewells_core]
    show (farewellPayloads cfg env _ _ _).1.core.lifecycle = _
    rw [farewellPayloads_core]
    exact h0

/-- A running node has nothing to do with leaving. -/
theorem reachable_notLeft {e : Ep I A} (h : Reachable cfg env e) (hr : e.core.lifecycle = .running) :
    e.leaveFlush = none ∧ e.core.events.filter isLeftCluster = [] := by
  have hP : Aside (isLeftCluster : Event I A → Bool) :=
    ⟨⟨fun _ => rfl, fun _ => rfl, fun _ => rfl, fun _ _ => rfl⟩, fun _ _ _ => rfl⟩
  have key := reachable_induct (P := fun e => e.core.lifecycle = .running →
    e.leaveFlush = none ∧ e.core.events.filter isLeftCluster = []) h ?_ ?_
  · exact key hr
  · intro now e0 h0 _
    rw [tryNew_eq h0]
    unfold refreshCache
    split <;> exact ⟨rfl, rfl⟩
  · intro e op hre ih
    refine step_micro_induct (Q := fun e => e.core.lifecycle = .running →
      e.leaveFlush = none ∧ e.core.events.filter isLeftCluster = []) hre op ih ?_
    intro late a b hg hn hq hm hrb
    have hra : a.core.lifecycle = .running := by
      by_contra hna
      refine absurd hrb ((micro_acts hm).inductGood (Q := fun c => c.lifecycle ≠ .running) hg hna ?_)
      intro c x _ hc hne
      rcases act_lifecycle (env := env) hc x with h | ⟨now, _, h1, _⟩
      · rw [h]; exact hne
      · exact absurd h1 hne
    obtain ⟨q1, q2⟩ := hq hra
    cases hm with
    | core x hx =>
      refine ⟨q1, ?_⟩
      by_cases hpop : x = .pop
      · subst hpop
        show a.core.events.tail.filter isLeftCluster = []
        cases hev : a.core.events with
        | nil => rfl
        | cons ev rest =>
          rw [hev, List.filter_cons] at q2
          split at q2
          · cases q2
          · exact q2
      · rw [← q2]
        refine act_filter hP hg x hpop ?_
        rintro ev rfl
        cases hx with
        | push _ h hq' => cases ev <;> simp_all [quietEv, isLeftCluster]
    | aux _ hc hn hf hu => exact ⟨hf.trans q1, by rw [hc]; exact q2⟩
    | dial id peer d hr hd => exact ⟨q1, (filter_snoc rfl _).trans q2⟩
    | fail s p now hp hw hr hlt =>
      refine ⟨?_, ?_⟩
      · rw [terminate_flush]; exact q1
      · rw [terminate_events a s now p hp, List.filter_append, q2]
        unfold failEvent
        split <;> rfl
    | done s p d pl now hp hd hw hr hlt =>
      refine ⟨?_, ?_⟩
      · rw [complete_flush]; exact q1
      · rw [complete_events a s now d pl p hp hd, List.filter_append, q2]
        unfold doneEvent
        split <;> rfl
    | nack src seq now ho => exact ⟨by rw [handleNack_flush]; exact q1, by rw [handleNack_core]; exact q2⟩
    | gossip targets now ho hr =>
      obtain ⟨ts, _, h1, _⟩ := sendAll_net (a.drainGossip cfg env).1 targets (a.drainGossip cfg env).2
      exact ⟨by rw [h1, (drainGossip_net a).2]; exact q1, by rw [sendAll_core, drainGossip_events]; exact q2⟩
    | leave now f ho hr =>
      exfalso
      have : (a.leaveWith cfg env now f).core.lifecycle = .left := leave_lifecycle hg hra now f
      rw [this] at hrb; cases hrb
    | poll ho =>
      cases htr : a.net.transmits with
      | nil => simp only [Ep.pollTransmit, htr]; exact ⟨q1, q2⟩
      | cons t rest => simp only [Ep.pollTransmit, htr, q1]; exact ⟨trivial, q2⟩
    | intentDial i hr hw => exact ⟨q1, (filter_snoc rfl _).trans q2⟩
    | _ => exact ⟨q1, q2⟩

/-! ### Leaving -/

/-- The farewell to one member. -/
def farewellTo (ps : List Bytes) (d : BadState I) (dst : A) : Transmit I A :=
  if ps.isEmpty then .packet dst (.dead d) else .compound dst (ps.map Message.userData ++ [.dead d])

/-- The node in the middle of `leave`. -/
def leaving (cfg : Cfg I A) (env : Env I A) (e : Ep I A) (now : Nat) : Ep I A :=
  { e with
    nextProbe := none, nextGossip := none, nextPushPull := none
    net := { e.net with intents := [], intentIdx := e.net.intentIdx.clear, transmits := [] }
    core := e.core.beginLeave cfg env now }

/-- The payloads of the farewells. -/
def farewellData (cfg : Cfg I A) (env : Env I A) (e : Ep I A) (now : Nat) (f : Option Bytes) : List Bytes :=
  if livePeers cfg (e.core.beginLeave cfg env now).members = [] then []
  else ((leaving cfg env e now).farewellPayloads cfg env (farewellClaim cfg e.core) f).2

/-- What `leave` does, piece by piece. -/
theorem leave_pieces {e : Ep I A} (hl : e.core.lifecycle = .running) (now : Nat) (f : Option Bytes) :
    (e.leaveWith cfg env now f).core = { e.core.beginLeave cfg env now with
      events := (e.core.beginLeave cfg env now).events ++
        (if livePeers cfg (e.core.beginLeave cfg env now).members = [] then [.leftCluster] else []) } ∧
    (e.leaveWith cfg env now f).net.transmits = (livePeers cfg (e.core.beginLeave cfg env now).members).map
      (farewellTo (farewellData cfg env e now f) (farewellClaim cfg e.core)) ∧
    (e.leaveWith cfg env now f).leaveFlush =
      (if livePeers cfg (e.core.beginLeave cfg env now).members = [] then none
       else some (livePeers cfg (e.core.beginLeave cfg env now).members).length) := by
  unfold farewellData
  have hlv : ∀ e1 : Ep I A, e1 = leaving cfg env e now → (e.leaveWith cfg env now f) =
      (if (livePeers cfg e1.core.members).length = 0 then
        { ({ e1 with user := e1.user.reset.1 } : Ep I A).emit .leftCluster with leaveFlush := none }
      else
        { ({ (e1.farewellPayloads cfg env (farewellClaim cfg e.core) f).1 with
          user := (e1.farewellPayloads cfg env (farewellClaim cfg e.core) f).1.user.reset.1 } : Ep I A).sendFarewells
            (livePeers cfg e1.core.members) (e1.farewellPayloads cfg env (farewellClaim cfg e.core) f).2
            (farewellClaim cfg e.core) with leaveFlush := some (livePeers cfg e1.core.members).length }) := by
    intro e1 h1
    subst h1
    unfold leaveWith
    rw [if_neg (by simp [hl])]
    rfl
  have hcore : (leaving cfg env e now).core = e.core.beginLeave cfg env now := rfl
  have htr : (leaving cfg env e now).net.transmits = [] := rfl
  rw [hlv _ rfl, ← hcore]
  generalize leaving cfg env e now = e1 at *
  by_cases hp : livePeers cfg e1.core.members = []
  · rw [if_pos (by rw [hp]; rfl), if_pos hp, if_pos hp, if_pos hp, hp]
    exact ⟨rfl, htr, rfl⟩
  · rw [if_neg (by rw [List.length_eq_zero_iff]; exact hp), if_neg hp, if_neg hp, if_neg hp]
    refine ⟨?_, ?_, rfl⟩
    · show (sendFarewells _ _ _ _).core = _
      rw [sendFarewells_core]
      show (farewellPayloads cfg env _ _ _).1.core = _
      rw [farewellPayloads_core]
      simp
    · show (sendFarewells _ _ _ _).net.transmits = _
      rw [sendFarewells_net]
      show (farewellPayloads cfg env _ _ _).1.net.transmits ++ _ = _
      rw [farewellPayloads_net, htr]
      rfl

/-- The member table after `leave`. -/
theorem leave_get {e : Ep I A} (hg : Good cfg e.core) (hl : e.core.lifecycle = .running) (now : Nat) :
    ∃ m, Spec.member e cfg.localId = some m ∧ m.incarnation = e.core.incarnation ∧ ∀ id,
      (e.core.beginLeave cfg env now).members.get id =
        if id = cfg.localId then some { m with susp := none, state := .left, stateChange := now }
        else Spec.member e id := by
  obtain ⟨m, hm, hlo⟩ := hg.inv.loc
  have hst : m.state = .alive := by have := hlo.state; rw [hl] at this; simpa using this
  refine ⟨m, hm, hlo.inc, fun id => ?_⟩
  rw [beginLeave_eq env hm hlo.inc hst]
  refine (get_killed (env := env) (m := m) (st := .left) (now := now)
    (c := { e.core with lifecycle := .leaving, events := e.core.events.filter (fun e => !e.isDial) })
    (d := { incarnation := e.core.incarnation, node := cfg.localId, src := cfg.localId }) hm id).trans ?_
  dsimp only
  split
  · rw [← hlo.inc]
  · rfl

omit [DecidableEq A] in
theorem leave_claim {e : Ep I A} (hg : Good cfg e.core) :
    farewellClaim cfg e.core = { incarnation := e.core.incarnation, node := cfg.localId, src := cfg.localId } := by
  obtain ⟨m, hm, hlo⟩ := hg.inv.loc
  unfold farewellClaim
  rw [hm]
  dsimp only
  rw [hlo.inc]
  simp

/-- The members that are sent farewells: those that were up before the call. -/
theorem leave_peers {e : Ep I A} (hg : Good cfg e.core) (hl : e.core.lifecycle = .running) (now : Nat) :
    ∃ l : List (Member I A), (l.map (fun m => m.server.id)).Nodup ∧
      (∀ m, m ∈ l ↔ Spec.member e m.server.id = some m ∧ m.server.id ≠ cfg.localId ∧ Live m) ∧
      livePeers cfg (e.core.beginLeave cfg env now).members = l.map (fun m => m.server.addr) := by
  obtain ⟨m0, hm0, _, hget⟩ := leave_get (env := env) hg hl now
  have hnd := (hg.inv.beginLeave (env := env) hl now).1.nodup
  refine ⟨(e.core.beginLeave cfg env now).members.filter (fun m => decide (m.id ≠ cfg.localId) &&
    decide (m.state = .alive ∨ m.state = .suspect)), ?_, fun m => ?_, rfl⟩
  · exact (List.Sublist.map _ List.filter_sublist).nodup hnd
  · rw [List.mem_filter, Bool.and_eq_true, decide_eq_true_eq, decide_eq_true_eq]
    have h1 : m ∈ (e.core.beginLeave cfg env now).members ↔
        (e.core.beginLeave cfg env now).members.get m.server.id = some m := by
      rw [Table.get_iff hnd]
      exact ⟨fun h => ⟨h, rfl⟩, fun h => h.1⟩
    rw [h1, hget]
    constructor
    · rintro ⟨h2, h3, h4⟩
      rw [if_neg (show ¬ m.server.id = cfg.localId from h3)] at h2
      exact ⟨h2, h3, h4⟩
    · rintro ⟨h2, h3, h4⟩
      rw [if_neg h3]
      exact ⟨h2, h3, h4⟩

/-- A node that has just left. -/
theorem gone_leave {e : Ep I A} (hg : Good cfg e.core) (hl : e.core.lifecycle = .running)
    (hq : e.core.events.filter isLeftCluster = []) (now : Nat) (f : Option Bytes) :
    Gone (e.leaveWith cfg env now f) ∧
    (e.leaveWith cfg env now f).core.events.countP isLeftCluster + due (e.leaveWith cfg env now f) = 1 := by
  obtain ⟨h1, h2, h3⟩ := leave_pieces (cfg := cfg) (env := env) hl now f
  obtain ⟨m, hm, hlo⟩ := hg.inv.loc
  have hst : m.state = .alive := by have := hlo.state; rw [hl] at this; simpa using this
  have hev : (e.core.beginLeave cfg env now).events =
      e.core.events.filter (fun e => !e.isDial) ++ [.nodeLeft m.server] := by
    rw [beginLeave_eq env hm hlo.inc hst]; rfl
  have hll := leave_lifecycle (env := env) hg hl now f
  have hc : (e.core.events.filter (fun e => !e.isDial)).countP isLeftCluster = 0 := by
    rw [List.countP_eq_zero]
    intro ev hev hx
    have : ev ∈ e.core.events.filter isLeftCluster := List.mem_filter.2 ⟨(List.mem_filter.1 hev).1, hx⟩
    rw [hq] at this; cases this
  refine ⟨⟨by rw [hll]; simp, ?_, ?_, ?_⟩, ?_⟩
  · intro n hn
    rw [h3] at hn
    rw [h2, List.length_map]
    split at hn
    · cases hn
    · rename_i hne
      cases hn
      exact ⟨rfl, List.length_pos_iff.2 hne⟩
  · intro hn
    rw [h3] at hn
    rw [h2]
    split at hn
    · rename_i he; rw [he]; rfl
    · cases hn
  · intro ev hev'
    rw [h1] at hev'
    dsimp only at hev'
    rw [hev, List.mem_append, List.mem_append, List.mem_filter, List.mem_singleton] at hev'
    rcases hev' with (⟨_, h⟩ | rfl) | h
    · simpa using h
    · rfl
    · split at h
      · rw [List.mem_singleton.1 h]; rfl
      · cases h
  · unfold due
    rw [h1, h3]
    dsimp only
    rw [hev, List.countP_append, List.countP_append, hc]
    split <;> rfl

theorem farewellData_mem (e : Ep I A) (now : Nat) (f : Option Bytes) :
    ∀ p ∈ farewellData cfg env e now f, f = some p ∨ p ∈ queuedData e := by
  unfold farewellData
  split
  · simp
  · unfold farewellPayloads
    dsimp only
    split
    · simp
    · intro p hp
      rcases List.mem_append.1 hp with h | h
      · left
        unfold farewellBudget at h
        dsimp only at h
        split at h
        · cases h
        · split at h
          · simp at h; rw [h]
          · cases h
      · right
        unfold drainUser at h
        dsimp only at h
        obtain ⟨x, hx, rfl⟩ := List.mem_map.1 h
        have hall : e.user.All (fun _ b => b ∈ queuedData e) := by
          intro t ht y hy
          exact List.mem_flatMap.2 ⟨t, ht, List.mem_map.2 ⟨y, hy, rfl⟩⟩
        exact (UserBroadcasts.takeMeasured_all (ops := bytesOps) hall _ _ _).2.1 x hx

/-- Nothing but a farewell leaves a node that is gone. -/
theorem gone_quiet {e : Ep I A} (hg : Good cfg e.core) (h : Gone e) (op : Op I A)
    (he : Engages (e.step cfg env op).2) : ∃ t, (e.step cfg env op).2 = .transmit (some t) := by
  have hl := h.lifecycle
  have hrun : e.isRunning = false := by simp [isRunning, hl]
  cases op with
  | streamEvent ev now =>
    exfalso
    simp only [step] at he
    unfold handleStreamEvent at he
    split at he <;> (try rw [if_pos hl] at he) <;> (obtain ⟨_, h⟩ := he; cases h)
  | ping node now => simp only [step, Ep.ping, hrun] at he; obtain ⟨_, h⟩ := he; cases h
  | startProbe now => simp only [step, Ep.startProbe, hrun] at he; cases he
  | startPushPullDirect peer kind now => simp only [step, startPushPullDirect_frozen hl] at he; cases he
  | startReliablePingDirect peerId peer seq d => simp only [step, startReliablePingDirect_frozen hl] at he; cases he
  | startUserMessage peer payload now =>
    simp only [step, Ep.startUserMessage, Ep.startUserMessageDirect, hrun] at he; obtain ⟨_, h⟩ := he; cases h
  | startUserMessageDirect peer payload now =>
    simp only [step, Ep.startUserMessageDirect, hrun] at he; obtain ⟨_, h⟩ := he; cases h
  | dialSucceeded id now =>
    exfalso
    simp only [step, Ep.dialSucceeded] at he
    split at he
    · cases he
    · rw [if_pos hl] at he
      split at he <;> cases he
  | acceptStream src now => simp only [step, Ep.acceptStream, hrun] at he; cases he
  | pollEvent =>
    exfalso
    obtain ⟨id, peer, d, h'⟩ := he
    have : Event.dialRequested id peer d ∈ e.core.events := by
      unfold Ep.pollEvent at h'
      split at h'
      · cases h'
      · rename_i ev rest hev
        cases h'
        rw [hev]; exact List.mem_cons_self ..
    have := h.dials _ this
    simp [Event.isDial] at this
  | pollTransmit =>
    simp only [step] at he ⊢
    exact ⟨_, congrArg _ (Option.eq_some_of_isSome he)⟩
  | sieveDials =>
    exfalso
    refine he (List.filter_eq_nil_iff.2 fun ev hev => ?_)
    rw [h.dials ev hev]; simp
  | _ => exact absurd he (by simp [step, Engages])

theorem gone_silent {e : Ep I A} (hr : Reachable cfg env e) (h : Gone e) (ops : List (Op I A)) :
    ∀ o ∈ outs cfg env e ops, Engages o → ∃ t, o = .transmit (some t) ∧ t ∈ sent cfg env e ops := by
  rw [sent_eq]
  induction ops generalizing e with
  | nil => simp [outs]
  | cons op ops ih =>
    intro o ho he
    simp only [outs, List.mem_cons] at ho
    rcases ho with rfl | ho
    · obtain ⟨t, ht⟩ := gone_quiet (reachable_good hr) h op he
      refine ⟨t, ht, List.mem_filterMap.2 ⟨_, List.mem_cons_self .., ?_⟩⟩
      rw [ht]; rfl
    · obtain ⟨t, h1, h2⟩ := ih (reachable_step hr op) (gone_step (reachable_good hr) h op).1 o ho he
      refine ⟨t, h1, ?_⟩
      obtain ⟨o', h3, h4⟩ := List.mem_filterMap.1 h2
      exact List.mem_filterMap.2 ⟨o', List.mem_cons_of_mem _ h3, h4⟩

theorem polls_transmits (e : Ep I A) (n : Nat) :
    (run cfg env e (List.replicate n .pollTransmit)).net.transmits = e.net.transmits.drop n := by
  induction n generalizing e with
  | zero => rfl
  | succ n ih =>
    rw [List.replicate_succ]
    refine (ih (e.step cfg env .pollTransmit).1).trans ?_
    have : (e.step cfg env .pollTransmit).1.net.transmits = e.net.transmits.drop 1 := by
      show e.pollTransmit.1.net.transmits = _
      rw [pollTransmit_net]
      simp
    rw [this, List.drop_drop]
    congr 1
    omega

/-- While a node runs, nobody is told that it left. -/
theorem notLeft_run {now : Nat} {e0 : Ep I A} (h0 : tryNew cfg env now = .ok e0) (ops : List (Op I A))
    (hr : (run cfg env e0 ops).core.lifecycle = .running) : leftReports cfg env e0 ops = 0 := by
  have h : ∀ ops : List (Op I A), Reachable cfg env (run cfg env e0 ops) := fun ops => ⟨now, e0, ops, h0, rfl⟩
  have key : ((outs cfg env e0 ops).filterMap eventOf).countP isLeftCluster = 0 := by
    induction ops using snoc_induction with
    | h0 => rfl
    | h1 ops op ih =>
      rw [run_snoc] at hr
      have hr' : (run cfg env e0 ops).core.lifecycle = .running := by
        by_contra hn
        rw [(frozen_step (env := env) (reachable_good (h ops)) hn op).lifecycle] at hr
        exact hn hr
      rw [outs_append, List.filterMap_append, List.countP_append, ih hr']
      have hq := (reachable_notLeft (h ops) hr').2
      generalize run cfg env e0 ops = e at *
      simp only [outs, List.filterMap_cons, List.filterMap_nil]
      have : ∀ ev, eventOf (e.step cfg env op).2 = some ev → isLeftCluster ev = false := by
        intro ev hev
        by_cases hp : op = .pollEvent
        · subst hp
          have h1 : e.pollEvent.2 = some ev := hev
          unfold Ep.pollEvent at h1
          split at h1
          · cases h1
          · rename_i ev' rest hl
            cases h1
            rw [hl, List.filter_cons] at hq
            split at hq
            · cases hq
            · simp_all
        · have : eventOf (e.step cfg env op).2 = none := by cases op <;> first | rfl | exact absurd rfl hp
          rw [this] at hev; cases hev
      cases hev : eventOf (e.step cfg env op).2 with
      | none => rfl
      | some ev => simp [this ev hev]
  unfold leftReports
  rw [reported_eq, List.countP_append, key, List.countP_eq_length_filter, (reachable_notLeft (h ops) hr).2]
  rfl

end Verif.Ep
