import Verif.Proof.Escalate
import Verif.Spec.Fair
/-
Lemmas for the fairness of probing: which calls move the probe cursor and the order of the table, and the distance of
a member from the cursor.
-/
namespace Verif.Core
open Verif
variable {I A : Type} [DecidableEq I] [DecidableEq A]
variable {cfg : Cfg I A} {env : Env I A}

/-- The ids of the table in order. -/
def ids (c : Core I A) : List I := c.members.map Member.id

/-- The order is unchanged, or members were added. -/
def Grows (c c' : Core I A) : Prop := c'.ids = c.ids ∨ c.members.length < c'.members.length

omit [DecidableEq I] [DecidableEq A] in
theorem Grows.refl (c : Core I A) : Grows c c := .inl rfl

omit [DecidableEq I] [DecidableEq A] in
theorem Grows.le {a b : Core I A} (h : Grows a b) : a.members.length ≤ b.members.length := by
  rcases h with h | h
  · have := congrArg List.length h
    simp only [ids, List.length_map] at this
    omega
  · omega

omit [DecidableEq I] [DecidableEq A] in
theorem Grows.trans {a b c : Core I A} (h1 : Grows a b) (h2 : Grows b c) : Grows a c := by
  rcases h2 with h2 | h2
  · rcases h1 with h1 | h1
    · exact .inl (h2.trans h1)
    · have := congrArg List.length h2
      simp only [ids, List.length_map] at this
      exact .inr (by omega)
  · have := h1.le
    exact .inr (by omega)

/-- The order is unchanged. -/
def Same (c c' : Core I A) : Prop := c'.ids = c.ids

omit [DecidableEq I] [DecidableEq A] in
theorem Same.refl (c : Core I A) : Same c c := rfl

omit [DecidableEq I] [DecidableEq A] in
theorem Same.trans {a b c : Core I A} (h1 : Same a b) (h2 : Same b c) : Same a c := Eq.trans h2 h1

omit [DecidableEq A] in
theorem same_update {c c' : Core I A} {id : I} {f : Member I A → Member I A} (h : c'.members = c.members.update id f)
    (hf : ∀ m, m.id = id → (f m).id = id) : Same c c' := by
  show ids _ = ids _
  unfold ids
  rw [h]
  exact Table.ids_update _ _ _ hf

omit [DecidableEq A] in
theorem refute_same (c : Core I A) (acc : Nat) : Same c (c.refute cfg env acc) := by
  unfold refute
  split
  · exact .refl _
  · dsimp only
    have h0 : ∀ x : Core I A, x.members = c.members → Same c (match x.members.get cfg.localId with
      | none => x
      | some m =>
        ({ x with members := x.members.update cfg.localId (fun m => { m with incarnation := x.incarnation }) } :
          Core I A).broadcast env m.server.id (.alive (aliveOf m.server x.incarnation))) := by
      intro x hx
      split
      · show ids _ = ids _; unfold ids; rw [hx]
      · refine same_update (id := cfg.localId) (f := fun m => { m with incarnation := x.incarnation }) ?_ (fun m hm => hm)
        rw [← hx]; rfl
    apply h0
    by_cases hc : acc ≥ c.nextIncarnation.incarnation
    · rw [if_pos hc]
      show (c.nextIncarnation.skipIncarnationPast acc).members = _
      unfold skipIncarnationPast
      split <;> rfl
    · rw [if_neg hc]; rfl

omit [DecidableEq A] in
theorem clearSuspicion_same (c : Core I A) (id : I) : Same c (c.clearSuspicion id) := by
  exact same_update rfl (fun m hm => hm)

omit [DecidableEq A] in
theorem killed_same (c : Core I A) (d : BadState I) (m : Member I A) (st : NState) (now : Nat) :
    Same c (c.killed env d m st now) :=
  (clearSuspicion_same c d.node).trans (same_update (id := d.node)
    (f := fun m => { m with incarnation := d.incarnation }.setState st now) rfl (fun m hm => hm))

theorem adopted_same (c : Core I A) (a : Alive I A) (upd : Bool) (m : Member I A) (now : Nat) :
    Same c (c.adopted env a upd m now) := by
  refine (clearSuspicion_same c a.node.id).trans ?_
  refine same_update (id := a.node.id) (f := adoptAlive a (if upd then some c.nextGen else none) now) ?_ ?_
  · unfold adopted
    dsimp only
    split <;> rfl
  · intro x hx
    rw [adoptAlive_id]

omit [DecidableEq A] in
theorem processDead_same (c : Core I A) (d : BadState I) (now : Nat) : Same c (c.processDead cfg env d now) := by
  refine processDead_cases cfg env c d now (Same c) (.refl _) ?_ ?_ ?_
  · intro m _ _ _ _ _; exact refute_same c _
  · intro m _ _ _ _ _ _; exact (killed_same (env := env) c d m .left now)
  · intro m _ _ _ _ _ _; exact killed_same c d m _ now

omit [DecidableEq A] in
theorem processSuspect_same (c : Core I A) (s : BadState I) (now : Nat) :
    Same c (c.processSuspect cfg env s now) := by
  refine processSuspect_cases cfg env c s now (Same c) (.refl _) ?_ ?_ ?_
  · intro m susp susp' d _ _ _ _ _
    exact same_update (id := s.node) (f := fun m => { m with susp := some susp' }) rfl (fun m hm => hm)
  · intro m _ _ _ _ _; exact refute_same c _
  · intro m mn mx _ _ _ _ _ _ _
    refine Same.trans (b := { c with members := c.members.update s.node (fun m => { m with susp := some (Suspicion.new s.src (if c.members.length ≥ cfg.suspicionMult then cfg.suspicionMult - 2 else 0) mn mx now) }) })
      (same_update rfl (fun m hm => hm)) ?_
    exact same_update (id := s.node) (f := fun m => { m with incarnation := s.incarnation }.setState .suspect now) rfl
      (fun m hm => hm)

theorem processAlive_grows {c : Core I A} (h : Inv cfg c) (a : Alive I A) (ok : Bool) (offset now : Nat) :
    Grows c (c.processAlive cfg env a ok offset now) := by
  apply processAlive_cases cfg env c a ok offset now (Grows c) (.refl _)
  · intros; exact .inl rfl
  · intros; exact .inl rfl
  · intros; exact .inl (clearSuspicion_same _ _)
  · intros; exact .inl ((clearSuspicion_same _ _).trans (refute_same _ _))
  · intros; exact .inl (adopted_same _ _ _ _ _)
  · intros; exact .inl (adopted_same _ _ _ _ _)
  · intro hl _ hg hn hcap
    have hp := (Table.insertAt_perm c.members (placeholder a c.nextGen now) (offset % (c.members.length + 1))).length_eq
    refine Grows.trans (b := c.withPlaceholder a offset now) (.inr ?_) (.inl (adopted_same _ _ _ _ _))
    show c.members.length < (c.members.insertAt _ _).length
    rw [hp]
    simp
  · obtain ⟨m, hm, _⟩ := h.loc
    rw [hm]; rfl
  · intro m hl hm
    have := (h.local_get hm).state
    rw [hl] at this
    simpa using this
  · exact h.nodup

theorem fireExpired_same (c : Core I A) (now : Nat) : Same c (c.fireExpiredSuspicions cfg env now) := by
  unfold fireExpiredSuspicions
  generalize c.expiredIds now = l
  induction l generalizing c with
  | nil => exact .refl _
  | cons x l ih => exact (processDead_same _ _ _).trans (ih _)

/-- Only a reset and an Alive claim change the order of the table. -/
theorem act_same {c : Core I A} (x : Act I A) (hx : ∀ pick now, x ≠ .reset pick now)
    (ha : ∀ a ok off now, x ≠ .alive a ok off now) : Same c (act cfg env c x) := by
  cases x with
  | alive a ok offset now => exact absurd rfl (ha a ok offset now)
  | suspect s now => exact processSuspect_same c s now
  | dead d now => exact processDead_same c d now
  | expire now => simp only [act]; split; exacts [fireExpired_same c now, .refl _]
  | reset pick now => exact absurd rfl (hx pick now)
  | updateMeta md =>
    simp only [act]
    split
    · exact same_update (id := cfg.localId) (f := fun m => { m with incarnation := (c.nextIncarnation).incarnation, server := { id := cfg.localId, addr := cfg.advertise, metadata := md, state := .alive, pv := cfg.pv, dv := cfg.dv } }) rfl (fun m hm => rfl)
    · exact .refl _
  | push ev => simp only [act]; split <;> rfl
  | pop => rfl
  | dropDials => rfl
  | fail s => rfl
  | success => rfl
  | drain o l => rfl
  | one l => rfl
  | leave now =>
    simp only [act]
    split
    · exact processDead_same _ _ _
    · exact .refl _

theorem act_grows {c : Core I A} (h : Good cfg c) (x : Act I A) (hx : ∀ pick now, x ≠ .reset pick now) :
    Grows c (act cfg env c x) := by
  by_cases ha : ∃ a ok off now, x = .alive a ok off now
  · obtain ⟨a, ok, off, now, rfl⟩ := ha
    exact processAlive_grows h.inv a ok off now
  · exact .inl (act_same x hx (fun a ok off now he => ha ⟨a, ok, off, now, he⟩))

theorem acts_grows {P : Act I A → Prop} (hP : ∀ x, P x → ∀ pick now, x ≠ .reset pick now) {a b : Core I A}
    (h : Acts cfg env P a b) (ha : Good cfg a) : Grows a b := by
  refine h.inductGood (Q := fun c => Grows a c) ha (.refl _) ?_
  intro c x hx hc hq
  exact hq.trans (act_grows hc x (hP x hx))

theorem acts_same {P : Act I A → Prop} (hP : ∀ x, P x → (∀ pick now, x ≠ .reset pick now) ∧ ∀ a ok off now, x ≠ .alive a ok off now)
    {a b : Core I A} (h : Acts cfg env P a b) : Same a b := by
  refine h.induct (Q := fun c => Same a c) (.refl _) ?_
  intro c x hx hq
  exact hq.trans (act_same x (hP x hx).1 (hP x hx).2)

end Verif.Core

namespace Verif.Ep
open Verif Core Spec
variable {I A : Type} [DecidableEq I] [DecidableEq A]
variable {cfg : Cfg I A} {env : Env I A}

/-- What the choice of the next member to probe depends on besides the table: the cursor, and the time of the next
choice. -/
def cur (e : Ep I A) : (Nat × Nat) × Option Nat := ((e.probeIndex, e.probesSinceReset), e.nextProbe)

omit [DecidableEq I] [DecidableEq A] in
theorem cur_foldl {α : Type} (f : Ep I A → α → Ep I A) (l : List α) (h : ∀ e x, (f e x).cur = e.cur) (e : Ep I A) :
    (l.foldl f e).cur = e.cur := by
  induction l generalizing e with
  | nil => rfl
  | cons x l ih => rw [List.foldl_cons, ih, h]

theorem probeTerminateFailure_cur (e : Ep I A) (seq now : Nat) :
    (e.probeTerminateFailure cfg env seq now).cur = e.cur := by
  unfold probeTerminateFailure; dsimp only; (repeat' split) <;> rfl

theorem completeProbeSuccess_cur (e : Ep I A) (seq : Nat) (d : Bool) (payload : Bytes) (now : Nat) :
    (e.completeProbeSuccess cfg env seq d payload now).cur = e.cur := by
  unfold completeProbeSuccess
  split
  · rfl
  · split
    · exact probeTerminateFailure_cur e seq now
    · dsimp only; (repeat' split) <;> rfl

theorem handleAck_cur (e : Ep I A) (src : A) (seq : Nat) (payload : Bytes) (now : Nat) :
    (e.handleAck cfg env src seq payload now).cur = e.cur := by
  unfold handleAck
  split
  · rfl
  · split
    · rfl
    · dsimp only
      split
      · (repeat' split) <;> rfl
      · exact completeProbeSuccess_cur { e with net := { e.net with acks := e.net.acks.erase seq } } _ _ _ _

theorem handleNack_cur (e : Ep I A) (src : A) (seq now : Nat) : (e.handleNack src seq now).cur = e.cur := by
  unfold handleNack; (repeat' split) <;> rfl

theorem handlePing_cur (e : Ep I A) (src : A) (p : Ping I A) : (e.handlePing cfg src p).cur = e.cur := by
  unfold handlePing; (repeat' split) <;> rfl

theorem handleIndirectPing_cur (e : Ep I A) (src : A) (p : Ping I A) (now : Nat) :
    (e.handleIndirectPing cfg env src p now).cur = e.cur := by
  unfold handleIndirectPing; dsimp only; (repeat' split) <;> rfl

theorem ping_cur (e : Ep I A) (node : TNode I A) (now : Nat) : (e.ping cfg env node now).1.cur = e.cur := by
  unfold ping
  dsimp only
  (repeat' split) <;> rfl

theorem pushWithinMtu_cur (e : Ep I A) (dst : A) (m : Message I A) :
    (e.pushWithinMtu cfg env dst m).1.cur = e.cur := by
  unfold pushWithinMtu; split <;> rfl

theorem sendProbe_cur (e : Ep I A) (m : Member I A) (seq : Nat) :
    (e.sendProbe cfg env m seq).1.cur = e.cur := by
  unfold sendProbe
  dsimp only
  split
  · split
    · rfl
    · rw [pushWithinMtu_cur, pushWithinMtu_cur]
  · rw [pushWithinMtu_cur]

theorem startPushPullDirect_cur (e : Ep I A) (peer : A) (kind : PushPullKind) (now : Nat) :
    (e.startPushPullDirect cfg env peer kind now).1.cur = e.cur := by
  unfold startPushPullDirect; dsimp only; split <;> rfl

theorem startReliablePingDirect_cur (e : Ep I A) (id : I) (peer : A) (seq d : Nat) :
    (e.startReliablePingDirect cfg env id peer seq d).1.cur = e.cur := by
  unfold startReliablePingDirect; dsimp only; split <;> rfl

theorem startUserMessageDirect_cur (e : Ep I A) (peer : A) (payload : Bytes) (now : Nat) :
    (e.startUserMessageDirect cfg env peer payload now).1.cur = e.cur := by
  unfold startUserMessageDirect; dsimp only; split <;> rfl

theorem requestDial_cur (e : Ep I A) (d : Option (DialIntent A)) : (e.requestDial d).cur = e.cur := by
  unfold requestDial; split <;> rfl

theorem startPushPull_cur (e : Ep I A) (peer : A) (kind : PushPullKind) (now : Nat) :
    (e.startPushPull cfg env peer kind now).1.cur = e.cur := by
  unfold startPushPull; dsimp only; rw [requestDial_cur, startPushPullDirect_cur]

theorem startReliablePing_cur (e : Ep I A) (id : I) (peer : A) (seq d : Nat) :
    (e.startReliablePing cfg env id peer seq d).1.cur = e.cur := by
  unfold startReliablePing; dsimp only; rw [requestDial_cur, startReliablePingDirect_cur]

theorem startUserMessage_cur (e : Ep I A) (peer : A) (payload : Bytes) (now : Nat) :
    (e.startUserMessage cfg env peer payload now).1.cur = e.cur := by
  have := startUserMessageDirect_cur (cfg := cfg) (env := env) e peer payload now
  unfold startUserMessage
  rw [← this]
  split
  · rename_i h; rw [h]
  · rename_i h; rw [h]; exact requestDial_cur _ _

theorem dialSucceeded_cur (e : Ep I A) (id now : Nat) : (e.dialSucceeded cfg id now).1.cur = e.cur := by
  unfold dialSucceeded
  dsimp only
  (repeat' split) <;> rfl

theorem acceptStream_cur (e : Ep I A) (src : A) (now : Nat) : (e.acceptStream cfg src now).1.cur = e.cur := by
  unfold acceptStream; split <;> rfl

theorem askRelays_cur (msg : Message I A) (l : List A) (e : Ep I A) (asked : List A) :
    (askRelays cfg env msg l e asked).1.cur = e.cur := by
  induction l generalizing e asked with
  | nil => rfl
  | cons a as ih => simp only [askRelays]; rw [ih, pushWithinMtu_cur]

theorem fanOutTo_cur (e : Ep I A) (p : Probe I A) (seq now : Nat) (st : Option Nat) (l : List A) :
    (e.fanOutTo cfg env p seq now st l).cur = e.cur := by
  unfold fanOutTo
  dsimp only
  split
  · rw [probeTerminateFailure_cur, askRelays_cur]
  · exact askRelays_cur _ _ _ _

theorem fanOut_cur (e : Ep I A) (seq now : Nat) : (e.fanOut cfg env seq now).cur = e.cur := by
  unfold fanOut
  split
  · rfl
  · dsimp only
    split
    · rw [probeTerminateFailure_cur]; rfl
    · rw [fanOutTo_cur]
      unfold startFallback
      split
      · rfl
      · exact startReliablePing_cur e.tickUp _ _ _ _

theorem advanceProbes_cur (e : Ep I A) (now : Nat) : (e.advanceProbes cfg env now).cur = e.cur := by
  unfold advanceProbes
  dsimp only
  rw [cur_foldl _ _ (fun e s => probeTerminateFailure_cur e s now), cur_foldl _ _ (fun e s => fanOut_cur e s now)]
  rfl

theorem fireExpiredForwards_cur (e : Ep I A) (now : Nat) : (e.fireExpiredForwards env now).cur = e.cur := by
  unfold fireExpiredForwards
  dsimp only
  rw [cur_foldl]
  · rfl
  · intro e x; split <;> rfl

theorem fireExpiredIntents_cur (e : Ep I A) (now : Nat) : (e.fireExpiredIntents env now).cur = e.cur := by
  unfold fireExpiredIntents
  dsimp only
  rw [cur_foldl]
  · rfl
  · intro e x; rfl

theorem timeoutEnds_cur (e : Ep I A) (now : Nat) : (timeoutEnds cfg env e now).cur = e.cur := by
  unfold timeoutEnds
  rw [fireExpiredIntents_cur, fireExpiredForwards_cur, advanceProbes_cur]
  rfl

theorem drainGossip_cur (e : Ep I A) : (e.drainGossip cfg env).1.cur = e.cur := by
  unfold drainGossip; dsimp only; (repeat' split) <;> rfl

theorem sendAll_cur (e : Ep I A) (targets : List A) (msgs : List (Message I A)) :
    (e.sendAll targets msgs).cur = e.cur := by
  unfold sendAll
  rw [cur_foldl]
  intro e x; split <;> rfl

theorem fireGossipScheduler_cur (e : Ep I A) (now : Nat) : (e.fireGossipScheduler cfg env now).cur = e.cur := by
  unfold fireGossipScheduler
  split
  · rfl
  · split
    · rfl
    · dsimp only
      split
      · rfl
      · show (sendAll _ _ _).cur = _
        rw [sendAll_cur, drainGossip_cur]; rfl

theorem firePushPullScheduler_cur (e : Ep I A) (now : Nat) : (e.firePushPullScheduler cfg env now).cur = e.cur := by
  unfold firePushPullScheduler
  split
  · rfl
  · split
    · rfl
    · dsimp only
      split
      · rfl
      · exact startPushPull_cur e.tickUp _ _ _

theorem refreshCache_cur (e : Ep I A) : e.refreshCache.cur = e.cur := by
  unfold refreshCache; split <;> rfl

theorem mergeState_cur (e : Ep I A) (remote : List (PushNodeState I A)) (now : Nat) :
    (e.mergeState cfg env remote now).cur = e.cur := by
  unfold mergeState
  rw [cur_foldl]
  intro e r
  unfold mergeOne
  split <;> rfl

theorem mergeRemote_cur (e : Ep I A) (peer : A) (states : List (PushNodeState I A)) (ud : Bytes)
    (kind : PushPullKind) (stream now : Nat) : (e.mergeRemote cfg env peer states ud kind stream now).cur = e.cur := by
  unfold mergeRemote
  dsimp only
  split
  · exact mergeState_cur _ _ _
  · exact mergeState_cur _ _ _

theorem sendFarewells_cur (e : Ep I A) (l : List A) (ps : List Bytes) (d : BadState I) :
    (e.sendFarewells l ps d).cur = e.cur := by
  unfold sendFarewells
  induction l generalizing e with
  | nil => rfl
  | cons x l ih => rw [List.foldl_cons, ih]; split <;> rfl

theorem leaveWith_cur (e : Ep I A) (now : Nat) (f : Option Bytes) : (e.leaveWith cfg env now f).cur.1 = e.cur.1 := by
  unfold leaveWith
  split
  · rfl
  · dsimp only
    split
    · rfl
    · show (sendFarewells _ _ _ _).cur.1 = _
      rw [sendFarewells_cur]
      unfold farewellPayloads
      dsimp only
      split <;> rfl

/-- Only probe rounds and resets move the cursor. -/
theorem step_cur (e : Ep I A) (op : Op I A) (h1 : ∀ now, op ≠ .startProbe now) (h2 : ∀ now, op ≠ .timeout now)
    (h3 : ∀ now, op ≠ .resetNodes now) : (e.step cfg env op).1.cur.1 = e.cur.1 := by
  cases op with
  | startProbe now => exact absurd rfl (h1 now)
  | timeout now => exact absurd rfl (h2 now)
  | resetNodes now => exact absurd rfl (h3 now)
  | packet src msg now =>
    simp only [step]
    unfold handlePacket
    split
    · rfl
    · cases msg with
      | ping p => exact congrArg Prod.fst (handlePing_cur _ _ _)
      | indirectPing p => exact congrArg Prod.fst (handleIndirectPing_cur _ _ _ _)
      | ack seq payload => exact congrArg Prod.fst (handleAck_cur _ _ _ _ _)
      | nack seq => exact congrArg Prod.fst (handleNack_cur _ _ _ _)
      | _ => rfl
  | streamEvent ev now =>
    simp only [step]
    unfold handleStreamEvent
    cases ev with
    | payload p =>
      cases p with
      | pushPullReply peer states ud kind stream =>
        dsimp only
        split
        · rfl
        · split
          · rfl
          · exact congrArg Prod.fst (mergeRemote_cur e.tickUp _ _ _ _ _ _)
      | pushPullRequest peer states ud kind stream =>
        dsimp only
        split
        · rfl
        · split
          · rfl
          · exact congrArg Prod.fst (mergeRemote_cur e.tickUp _ _ _ _ _ _)
      | reliablePingAcked seq at_ =>
        dsimp only
        split
        · rfl
        · exact congrArg Prod.fst (completeProbeSuccess_cur _ _ _ _ _)
      | userData peer data => dsimp only; split <;> rfl
    | reliablePingFailed seq => dsimp only; split <;> rfl
    | streamClosed => rfl
    | streamErrored => rfl
  | mergeState remote now => exact congrArg Prod.fst (mergeState_cur _ _ _)
  | ping node now => exact congrArg Prod.fst (ping_cur _ _ _)
  | startPushPull peer kind now => exact congrArg Prod.fst (startPushPull_cur _ _ _ _)
  | startPushPullDirect peer kind now => exact congrArg Prod.fst (startPushPullDirect_cur _ _ _ _)
  | startReliablePing id peer seq d => exact congrArg Prod.fst (startReliablePing_cur _ _ _ _ _)
  | startReliablePingDirect id peer seq d => exact congrArg Prod.fst (startReliablePingDirect_cur _ _ _ _ _)
  | startUserMessage peer payload now => exact congrArg Prod.fst (startUserMessage_cur _ _ _ _)
  | startUserMessageDirect peer payload now => exact congrArg Prod.fst (startUserMessageDirect_cur _ _ _ _)
  | dialSucceeded id now => exact congrArg Prod.fst (dialSucceeded_cur _ _ _)
  | dialFailed id => rfl
  | acceptStream src now => exact congrArg Prod.fst (acceptStream_cur _ _ _)
  | startScheduling now => simp only [step]; unfold startScheduling; split <;> rfl
  | leave now f => exact leaveWith_cur e now f
  | updateMeta md => simp only [step]; unfold updateMeta; (repeat' split) <;> rfl
  | setAckPayload b => simp only [step]; unfold setAckPayload; (repeat' split) <;> rfl
  | setLocalState b => simp only [step]; unfold setLocalState; (repeat' split) <;> rfl
  | setResponseCompression => exact congrArg Prod.fst (refreshCache_cur _)
  | queueUser rank b => simp only [step]; unfold queueUser; (repeat' split) <;> rfl
  | sendUserPacket dst b => simp only [step]; unfold sendUserPacket; (repeat' split) <;> rfl
  | sendUserPackets dst bs =>
    simp only [step]
    unfold sendUserPackets sendUserPacket
    dsimp only
    (repeat' split) <;> rfl
  | pollEvent => simp only [step]; unfold pollEvent; (repeat' split) <;> rfl
  | pollTransmit => simp only [step]; unfold pollTransmit; dsimp only; (repeat' split) <;> rfl
  | requeueDial id peer d => simp only [step]; unfold requeueDial; (repeat' split) <;> rfl
  | _ => rfl

/-! ### The scan -/

/-- A member the scan passes over. -/
def skipped (cfg : Cfg I A) (m : Member I A) : Prop := m.id = cfg.localId ∨ m.deadOrLeft = true

omit [DecidableEq A] in
/-- The scan finds the first member from the cursor that it does not pass over. -/
theorem probeScan_some {t : Table I A} {i fuel off : Nat} {m : Member I A} {i' : Nat}
    (h : probeScan cfg t i fuel off = some (m, i')) :
    ∃ k, off ≤ k ∧ k < off + fuel ∧ t[(i + k) % t.length]? = some m ∧ ¬ skipped cfg m ∧
      i' = ((i + k) % t.length + 1) % t.length ∧
      ∀ j m', off ≤ j → j < k → t[(i + j) % t.length]? = some m' → skipped cfg m' := by
  induction fuel generalizing off with
  | zero => cases h
  | succ fuel ih =>
    simp only [probeScan] at h
    have hrec : probeScan cfg t i fuel (off + 1) = some (m, i') →
        (∀ m', t[(i + off) % t.length]? = some m' → skipped cfg m') →
        ∃ k, off ≤ k ∧ k < off + (fuel + 1) ∧ t[(i + k) % t.length]? = some m ∧ ¬ skipped cfg m ∧
      i' = ((i + k) % t.length + 1) % t.length ∧
      ∀ j m', off ≤ j → j < k → t[(i + j) % t.length]? = some m' → skipped cfg m' := by
      intro h hs
      obtain ⟨k, h1, h2, h3, h4, h5, h6⟩ := ih h
      refine ⟨k, by omega, by omega, h3, h4, h5, ?_⟩
      intro j m' hj hjk hm'
      by_cases he : j = off
      · subst he; exact hs _ hm'
      · exact h6 j m' (by omega) hjk hm'
    cases hg : t[(i + off) % t.length]? with
    | none => rw [hg] at h; exact hrec h (fun m' hm' => by rw [hg] at hm'; cases hm')
    | some x =>
      rw [hg] at h
      dsimp only at h
      by_cases hx : x.id = cfg.localId ∨ x.deadOrLeft = true
      · rw [if_pos hx] at h
        exact hrec h (fun m' hm' => by rw [hg] at hm'; cases hm'; exact hx)
      · rw [if_neg hx] at h
        cases h
        exact ⟨off, Nat.le_refl _, by omega, hg, hx, rfl, fun j m' h1 h2 => by omega⟩

omit [DecidableEq A] in
theorem probeScan_none {t : Table I A} {i fuel off : Nat} (h : probeScan cfg t i fuel off = none) :
    ∀ j m', off ≤ j → j < off + fuel → t[(i + j) % t.length]? = some m' → skipped cfg m' := by
  induction fuel generalizing off with
  | zero => intro j m' h1 h2; omega
  | succ fuel ih =>
    intro j m' h1 h2 hm'
    simp only [probeScan] at h
    cases hg : t[(i + off) % t.length]? with
    | none =>
      rw [hg] at h
      by_cases he : j = off
      · subst he; rw [hg] at hm'; cases hm'
      · exact ih h j m' (by omega) (by omega) hm'
    | some x =>
      rw [hg] at h
      dsimp only at h
      by_cases hx : x.id = cfg.localId ∨ x.deadOrLeft = true
      · rw [if_pos hx] at h
        by_cases he : j = off
        · subst he; rw [hg] at hm'; cases hm'; exact hx
        · exact ih h j m' (by omega) (by omega) hm'
      · rw [if_neg hx] at h
        cases h

/-! ### The distance of a member from the cursor -/

/-- The member is `d` places after the cursor. -/
def FarAt (l : List I) (i : Nat) (id : I) (d : Nat) : Prop := d < l.length ∧ l[(i + d) % l.length]? = some id

/-- The member is `d` places after the cursor of the node. -/
def Far (e : Ep I A) (id : I) (d : Nat) : Prop := FarAt e.core.ids e.probeIndex id d

omit [DecidableEq I] in
theorem farAt_exists {l : List I} {id : I} (h : id ∈ l) (i : Nat) : ∃ d, FarAt l i id d := by
  obtain ⟨p, hp, hpe⟩ := List.getElem_of_mem h
  have hn : 0 < l.length := by omega
  refine ⟨(p + (l.length - i % l.length)) % l.length, Nat.mod_lt _ hn, ?_⟩
  have hi := Nat.mod_lt i hn
  have : (i + (p + (l.length - i % l.length)) % l.length) % l.length = p := by
    rw [Nat.add_mod, Nat.mod_mod, ← Nat.add_mod]
    have h0 : i = l.length * (i / l.length) + i % l.length := (Nat.div_add_mod i l.length).symm
    have : i + (p + (l.length - i % l.length)) = p + l.length * (i / l.length + 1) := by
      rw [Nat.mul_add, Nat.mul_one]
      omega
    rw [this, Nat.add_mul_mod_self_left, Nat.mod_eq_of_lt hp]
  rw [this, List.getElem?_eq_getElem hp, hpe]

omit [DecidableEq I] in
/-- Moving the cursor past the member `k` places ahead brings a farther one closer. -/
theorem farAt_closer {l : List I} {i k d : Nat} {id : I} (h : FarAt l i id d) (hk : k < d) :
    FarAt l (((i + k) % l.length + 1) % l.length) id (d - k - 1) := by
  refine ⟨by have := h.1; omega, ?_⟩
  rw [← h.2]
  congr 1
  rw [Nat.mod_add_mod, Nat.add_assoc, Nat.mod_add_mod]
  congr 1
  omega

/-! ### One round -/

/-- What a node waits for, apart from what it sends. -/
def waits (e : Ep I A) : Map Nat (Probe I A) × Map Nat (Forward A) × Nat := (e.net.probes, e.net.forwards, e.net.nextSeq)

omit [DecidableEq I] [DecidableEq A] in
theorem pushWithinMtu_waits (e : Ep I A) (dst : A) (m : Message I A) :
    (e.pushWithinMtu cfg env dst m).1.waits = e.waits := by
  unfold pushWithinMtu; split <;> rfl

omit [DecidableEq I] [DecidableEq A] in
theorem sendProbe_waits (e : Ep I A) (m : Member I A) (seq : Nat) :
    (e.sendProbe cfg env m seq).1.waits = e.waits := by
  unfold sendProbe
  dsimp only
  split
  · split
    · rfl
    · rw [pushWithinMtu_waits, pushWithinMtu_waits]
  · rw [pushWithinMtu_waits]

omit [DecidableEq I] [DecidableEq A] in
theorem startPushPull_waits (e : Ep I A) (peer : A) (kind : PushPullKind) (now : Nat) :
    (e.startPushPull cfg env peer kind now).1.waits = e.waits := by
  unfold startPushPull startPushPullDirect requestDial
  dsimp only
  (repeat' split) <;> first | rfl | (rename_i h; cases h)

theorem fireGossipScheduler_waits (e : Ep I A) (now : Nat) : (e.fireGossipScheduler cfg env now).waits = e.waits := by
  unfold fireGossipScheduler
  split
  · rfl
  · split
    · rfl
    · dsimp only
      split
      · rfl
      · obtain ⟨ts, h, _⟩ := sendAll_net (e.tickUp.drainGossip cfg env).1 (pickRandom (gossipCandidates cfg e.core.members now) cfg.gossipNodes (env.tape e.tick)) (e.tickUp.drainGossip cfg env).2
        show waits (sendAll _ _ _) = _
        unfold waits
        rw [h, (drainGossip_net e.tickUp).1]
        rfl

theorem firePushPullScheduler_waits (e : Ep I A) (now : Nat) :
    (e.firePushPullScheduler cfg env now).waits = e.waits := by
  unfold firePushPullScheduler
  split
  · rfl
  · split
    · rfl
    · dsimp only
      split
      · rfl
      · exact startPushPull_waits e.tickUp _ _ _

theorem refreshCache_waits (e : Ep I A) : e.refreshCache.waits = e.waits := by
  unfold refreshCache; split <;> rfl

theorem mem_ids {e : Ep I A} {id : I} (h : LiveRemote cfg e id) : id ∈ e.core.ids := by
  obtain ⟨_, m, hm, _⟩ := h
  rw [member_eq] at hm
  have := List.mem_map_of_mem (f := Member.id) (Table.get_mem hm)
  rwa [Table.get_id hm] at this

omit [DecidableEq I] [DecidableEq A] in
theorem ids_get {c : Core I A} {k : Nat} {id : I} (h : c.ids[k]? = some id) : ∃ m, c.members[k]? = some m ∧ m.id = id := by
  unfold ids at h
  rw [List.getElem?_map] at h
  cases hm : c.members[k]? with
  | none => rw [hm] at h; cases h
  | some m => rw [hm] at h; exact ⟨m, rfl, by simpa using h⟩

/-- A round probes the member, or comes closer to it. -/
theorem startProbe_far {x : Ep I A} {now : Nat} (hx : x.core.lifecycle = .running) (hn : x.core.ids.Nodup)
    (hok : NetOk cfg x.net) {id : I} (hl : LiveRemote cfg x id)
    (hf : (x.startProbe cfg env now).1.net.probes.length + (x.startProbe cfg env now).1.net.forwards.length < 2 ^ 32 - 1)
    {d : Nat} (hd : Far x id d) :
    (x.startProbe cfg env now).1.probesSinceReset = x.probesSinceReset ∧
      (Probing (x.startProbe cfg env now).1 id now ∨ ∃ d', d' < d ∧ Far (x.startProbe cfg env now).1 id d') := by
  have hcore := startProbe_core (cfg := cfg) (env := env) x now
  have hlen : x.core.ids.length = x.core.members.length := by simp [ids]
  have hns : ∀ m, x.core.members[(x.probeIndex + d) % x.core.members.length]? = some m → ¬ skipped cfg m ∧ m.id = id := by
    intro m hm
    have h2 := hd.2
    rw [hlen] at h2
    obtain ⟨m', hm', hid⟩ := ids_get h2
    rw [hm] at hm'; cases hm'
    refine ⟨?_, hid⟩
    obtain ⟨h1, q, hq, hst⟩ := hl
    rw [member_eq] at hq
    have hmem := List.mem_of_getElem? hm
    have : x.core.members.get id = some m := (Table.get_iff hn).2 ⟨hmem, hid⟩
    rw [hq] at this; cases this
    intro hs
    rcases hs with hs | hs
    · exact h1 (hid ▸ hs)
    · simp only [Member.deadOrLeft, decide_eq_true_eq] at hs
      rcases hst with hst | hst <;> rcases hs with hs | hs <;> rw [hst] at hs <;> cases hs
  obtain ⟨m0, hm0, _⟩ := ids_get (show x.core.ids[(x.probeIndex + d) % x.core.members.length]? = some id by
    rw [← hlen]; exact hd.2)
  have hdn : d < x.core.members.length := by rw [← hlen]; exact hd.1
  have htgt : ∃ m i', x.nextProbeTarget cfg = some (m, i') := by
    unfold nextProbeTarget
    rw [if_neg (by omega)]
    cases hs : probeScan cfg x.core.members x.probeIndex x.core.members.length 0 with
    | some r => exact ⟨r.1, r.2, rfl⟩
    | none => exact absurd (probeScan_none hs d m0 (by omega) (by omega) hm0) (hns m0 hm0).1
  obtain ⟨m, i', ht⟩ := htgt
  have hscan := ht
  unfold nextProbeTarget at hscan
  rw [if_neg (by omega)] at hscan
  obtain ⟨k, _, k1, k2, k3, k4, k5⟩ := probeScan_some hscan
  have hkd : k ≤ d := by
    by_contra hc
    exact (hns m0 hm0).1 (k5 d m0 (by omega) (by omega) hm0)
  have hidx : (x.startProbe cfg env now).1.probeIndex = i' ∧
      (x.startProbe cfg env now).1.probesSinceReset = x.probesSinceReset := by
    unfold startProbe
    rw [if_neg (by simp [isRunning, hx]), ht]
    dsimp only
    split
    · exact ⟨rfl, rfl⟩
    · rename_i seq hs
      have := congrArg Prod.fst (sendProbe_cur (cfg := cfg) (env := env) ({ x with probeIndex := i', net := { x.net with nextSeq := seq, probes := x.net.probes.insert seq (Probe.newDirect m.server m.incarnation m.gen now .detection cfg.probeTimeout (now + x.core.awareness.scaleTimeout cfg.probeInterval)), acks := x.net.acks.insert seq { sent := now, deadline := (Probe.newDirect m.server m.incarnation m.gen now .detection cfg.probeTimeout (now + x.core.awareness.scaleTimeout cfg.probeInterval)).directDeadline cfg.probeTimeout, kind := .probe } } } : Ep I A) m seq)
      exact ⟨congrArg Prod.fst this, congrArg Prod.snd this⟩
  refine ⟨hidx.2, ?_⟩
  by_cases hk : k = d
  · left
    subst hk
    have hmid := (hns m k2).2
    unfold Probing pending
    unfold startProbe at hf ⊢
    rw [if_neg (by simp [isRunning, hx]), ht] at hf ⊢
    dsimp only at hf ⊢
    cases ha : allocSeq x.net with
    | none =>
      rw [ha] at hf
      obtain ⟨s, hs⟩ := allocSeq_exists hok hf
      rw [ha] at hs; cases hs
    | some seq =>
      dsimp only
      have hw := sendProbe_waits (cfg := cfg) (env := env) ({ x with probeIndex := i', net := { x.net with nextSeq := seq, probes := x.net.probes.insert seq (Probe.newDirect m.server m.incarnation m.gen now .detection cfg.probeTimeout (now + x.core.awareness.scaleTimeout cfg.probeInterval)), acks := x.net.acks.insert seq { sent := now, deadline := (Probe.newDirect m.server m.incarnation m.gen now .detection cfg.probeTimeout (now + x.core.awareness.scaleTimeout cfg.probeInterval)).directDeadline cfg.probeTimeout, kind := .probe } } } : Ep I A) m seq
      have hw1 := congrArg Prod.fst hw
      have hw2 := congrArg (fun p => p.2.2) hw
      dsimp only [waits] at hw1 hw2
      rw [hw1, hw2, Map.get?_modify, if_pos rfl, Map.get?_insert, if_pos rfl]
      exact ⟨_, rfl, rfl, hmid, rfl⟩
  · right
    refine ⟨d - k - 1, by omega, ?_⟩
    unfold Far
    rw [hcore, hidx.1, k4, ← hlen]
    exact farAt_closer hd (by omega)

theorem fireGossipScheduler_members (e : Ep I A) (now : Nat) :
    (e.fireGossipScheduler cfg env now).core.members = e.core.members := by
  unfold fireGossipScheduler
  split
  · rfl
  · split
    · rfl
    · dsimp only
      split
      · rfl
      · show (sendAll _ _ _).core.members = _
        rw [sendAll_core]
        unfold drainGossip drainUser
        dsimp only
        (repeat' split) <;> rfl

theorem firePushPullScheduler_members (e : Ep I A) (now : Nat) :
    (e.firePushPullScheduler cfg env now).core.members = e.core.members := by
  unfold firePushPullScheduler
  split
  · rfl
  · split
    · rfl
    · dsimp only
      split
      · rfl
      · show (startPushPull _ _ _ _ _ _).1.core.members = _
        unfold startPushPull startPushPullDirect requestDial
        dsimp only
        (repeat' split) <;> rfl

/-- The schedulers after the probe scheduler leave alone what fairness depends on. -/
theorem after_probe (e : Ep I A) (now : Nat) :
    let r := ((e.fireGossipScheduler cfg env now).firePushPullScheduler cfg env now).refreshCache
    r.cur = e.cur ∧ r.waits = e.waits ∧ r.core.members = e.core.members := by
  refine ⟨?_, ?_, ?_⟩
  · rw [refreshCache_cur, firePushPullScheduler_cur, fireGossipScheduler_cur]
  · rw [refreshCache_waits, firePushPullScheduler_waits, fireGossipScheduler_waits]
  · rw [refreshCache_core, firePushPullScheduler_members, fireGossipScheduler_members]

theorem far_of {a b : Ep I A} (h1 : b.core.ids = a.core.ids) (h2 : b.probeIndex = a.probeIndex) {id : I} {d : Nat}
    (h : Far a id d) : Far b id d := by
  unfold Far at h ⊢
  rw [h1, h2]; exact h

theorem probing_of {a b : Ep I A} (h : b.waits = a.waits) {id : I} {now : Nat} (hp : Probing a id now) :
    Probing b id now := by
  have h1 := congrArg Prod.fst h
  have h2 := congrArg (fun p => p.2.2) h
  dsimp only [waits] at h1 h2
  unfold Probing pending at hp ⊢
  rw [h1, h2]; exact hp

/-- The first part of the timer service leaves the order of the table alone. -/
theorem timeoutEnds_same {e : Ep I A} (now : Nat) (hg : Good cfg e.core) :
    Good cfg (timeoutEnds cfg env e now).core ∧ Same e.core (timeoutEnds cfg env e now).core := by
  have hl := hg.settled
  have h0 : Good cfg (e.core.fireExpiredSuspicions cfg env now) :=
    ⟨hg.inv.fireExpired env now hl, by rw [fireExpired_lifecycle now hl]; exact hl⟩
  have hb : Base (I := I) (A := A) (fun x => (∀ pick now, x ≠ .reset pick now) ∧ ∀ a ok off now, x ≠ .alive a ok off now) :=
    ⟨fun _ _ => by simp, fun _ => by simp, by simp, fun _ _ => by simp, fun _ => by simp⟩
  have h1 := advanceProbes_acts (cfg := cfg) (env := env) hb
    { e with core := e.core.fireExpiredSuspicions cfg env now } now (fun s _ => by simp)
  unfold timeoutEnds
  rw [fireExpiredIntents_core, fireExpiredForwards_core]
  exact ⟨h1.good h0, (fireExpired_same _ _).trans (acts_same (fun x hx => hx) h1)⟩

omit [DecidableEq I] [DecidableEq A] in
theorem grows_eq {a b : Core I A} (h : Grows a b) (hl : b.members.length ≤ a.members.length) : b.ids = a.ids := by
  rcases h with h | h
  · exact h
  · omega

theorem liveRemote_of {a b : Ep I A} (h : b.core.members = a.core.members) {id : I} (hl : LiveRemote cfg a id) :
    LiveRemote cfg b id := by
  obtain ⟨h1, m, hm, hs⟩ := hl
  refine ⟨h1, m, ?_, hs⟩
  rw [member_eq, h, ← member_eq]; exact hm

/-- The probe scheduler when it is due. -/
theorem fireProbe_far {e : Ep I A} {now t : Nat} (ht : e.nextProbe = some t) (hdue : t ≤ now)
    (hl : e.core.lifecycle = .running) (hg : Good cfg e.core) (hok : NetOk cfg e.net) {id : I}
    (hlive : LiveRemote cfg (e.fireProbeScheduler cfg env now) id)
    (hf : (e.fireProbeScheduler cfg env now).net.probes.length + (e.fireProbeScheduler cfg env now).net.forwards.length <
      2 ^ 32 - 1) {d : Nat} (hd : Far e id d) :
    Probing (e.fireProbeScheduler cfg env now) id now ∨
      ((e.fireProbeScheduler cfg env now).core.members = e.core.members ∧
        (e.fireProbeScheduler cfg env now).probesSinceReset = e.probesSinceReset + 1 ∧
        ∃ d', d' < d ∧ Far (e.fireProbeScheduler cfg env now) id d') ∨
      (e.core.members.length ≤ e.probesSinceReset + 1 ∧ (e.fireProbeScheduler cfg env now).probesSinceReset = 0 ∧
        ∃ d', d' + 1 < (e.fireProbeScheduler cfg env now).core.members.length ∧
          Far (e.fireProbeScheduler cfg env now) id d') := by
  by_cases hr : e.core.members.length > 0 ∧ e.probesSinceReset + 1 ≥ e.core.members.length
  · have heq : e.fireProbeScheduler cfg env now =
        { ((({ ({ e with probesSinceReset := e.probesSinceReset + 1 } : Ep I A).resetNodes cfg env now with probesSinceReset := 0 } : Ep I A)).startProbe cfg env now).1 with nextProbe := some (now + cfg.probeInterval) } := by
      unfold fireProbeScheduler
      rw [ht]
      dsimp only
      rw [if_neg (by omega), if_pos hr]
    generalize hx : ({ ({ e with probesSinceReset := e.probesSinceReset + 1 } : Ep I A).resetNodes cfg env now with probesSinceReset := 0 } : Ep I A) = x at heq
    have hxg : Good cfg x.core := by rw [← hx]; exact hg.act (env := env) (.reset (env.tape e.tick) now)
    have hxl : x.core.lifecycle = .running := by
      rw [← hx]
      show (e.core.resetNodes cfg _ now).lifecycle = _
      rw [resetNodes_lifecycle]; exact hl
    have hxo : NetOk cfg x.net := by rw [← hx]; exact hok
    have hxs : x.probesSinceReset = 0 := by rw [← hx]
    have hcore : (e.fireProbeScheduler cfg env now).core = x.core := by
      rw [heq]; exact startProbe_core x now
    have hlx : LiveRemote cfg x id := liveRemote_of (by rw [hcore]) hlive
    obtain ⟨d0, hd0⟩ := farAt_exists (mem_ids hlx) x.probeIndex
    rw [heq] at hf
    obtain ⟨h1, h2⟩ := startProbe_far (env := env) hxl hxg.inv.nodup hxo hlx hf hd0
    rcases h2 with h2 | ⟨d', hd', hfar⟩
    · left; rw [heq]; exact h2
    · right; right
      refine ⟨hr.2, ?_, d', ?_, ?_⟩
      · rw [heq]; exact h1.trans hxs
      · rw [hcore]
        have := hd0.1
        simp only [ids, List.length_map] at this
        omega
      · rw [heq]; exact hfar
  · have heq : e.fireProbeScheduler cfg env now =
        { ((({ e with probesSinceReset := e.probesSinceReset + 1 } : Ep I A)).startProbe cfg env now).1 with nextProbe := some (now + cfg.probeInterval) } := by
      unfold fireProbeScheduler
      rw [ht]
      dsimp only
      rw [if_neg (by omega), if_neg hr]
    generalize hx : ({ e with probesSinceReset := e.probesSinceReset + 1 } : Ep I A) = x at heq
    have hxc : x.core = e.core := by rw [← hx]
    have hxo : NetOk cfg x.net := by rw [← hx]; exact hok
    have hxs : x.probesSinceReset = e.probesSinceReset + 1 := by rw [← hx]
    have hcore : (e.fireProbeScheduler cfg env now).core = x.core := by
      rw [heq]; exact startProbe_core x now
    have hlx : LiveRemote cfg x id := liveRemote_of (by rw [hcore]) hlive
    rw [heq] at hf
    have hdx : Far x id d := far_of (by rw [hxc]) (by rw [← hx]) hd
    obtain ⟨h1, h2⟩ := startProbe_far (env := env) (by rw [hxc]; exact hl) (by rw [hxc]; exact hg.inv.nodup) hxo hlx hf hdx
    rcases h2 with h2 | ⟨d', hd', hfar⟩
    · left; rw [heq]; exact h2
    · right; left
      refine ⟨by rw [hcore, hxc], ?_, d', hd', ?_⟩
      · rw [heq]; exact h1.trans hxs
      · rw [heq]; exact hfar

/-- What one call does to the distance of a live member from the cursor. -/
theorem step_fair {e : Ep I A} (h : Reachable cfg env e) (op : Op I A) (hno : ∀ now, op ≠ .resetNodes now) {id : I}
    (hlive : LiveRemote cfg (e.step cfg env op).1 id)
    (hlen : (e.step cfg env op).1.core.members.length = e.core.members.length)
    (hf : (e.step cfg env op).1.net.probes.length + (e.step cfg env op).1.net.forwards.length < 2 ^ 32 - 1) {d : Nat}
    (hd : Far e id d) :
    (isRound e op = false ∧ Far (e.step cfg env op).1 id d ∧
      (e.step cfg env op).1.probesSinceReset = e.probesSinceReset) ∨
    (isRound e op = true ∧
      ((∃ now, op.time? = some now ∧ Probing (e.step cfg env op).1 id now) ∨
        (∃ d', d' < d ∧ Far (e.step cfg env op).1 id d' ∧
          (e.step cfg env op).1.probesSinceReset ≤ e.probesSinceReset + 1) ∨
        ((∃ now, op = .timeout now) ∧ e.core.members.length ≤ e.probesSinceReset + 1 ∧
          (e.step cfg env op).1.probesSinceReset = 0 ∧
          ∃ d', d' + 1 < e.core.members.length ∧ Far (e.step cfg env op).1 id d'))) := by
  have hg := reachable_good h
  have hok := reachable_netOk h
  by_cases h1 : ∃ now, op = .startProbe now
  · obtain ⟨now, rfl⟩ := h1
    by_cases hl : e.core.lifecycle = .running
    · right
      refine ⟨by simp [isRound, hl], ?_⟩
      have hcore := startProbe_core (cfg := cfg) (env := env) e now
      obtain ⟨s1, s2⟩ := startProbe_far (env := env) (now := now) hl hg.inv.nodup hok (liveRemote_of (by rw [← hcore]; rfl) hlive) hf hd
      rcases s2 with s2 | ⟨d', s2, s3⟩
      · exact .inl ⟨now, rfl, s2⟩
      · exact .inr (.inl ⟨d', s2, s3, by show (e.startProbe cfg env now).1.probesSinceReset ≤ _; omega⟩)
    · left
      have : (e.step cfg env (.startProbe now)).1 = e := by
        show (e.startProbe cfg env now).1 = e
        unfold startProbe
        rw [if_pos (by simp [isRunning, hl])]
      rw [this]
      exact ⟨by simp [isRound, hl], hd, rfl⟩
  · by_cases h2 : ∃ now, op = .timeout now
    · obtain ⟨now, rfl⟩ := h2
      by_cases hl : e.core.lifecycle = .running
      · have heq : (e.step cfg env (.timeout now)).1 = timeoutStarts cfg env (timeoutEnds cfg env e now) now :=
          handleTimeout_eq e now hl
        obtain ⟨hm, hml⟩ := timeoutEnds_micros (cfg := cfg) (env := env) (op := .timeout now) e now rfl hl hok.pn hok.fn
        obtain ⟨hg3, hgr⟩ := timeoutEnds_same (env := env) now hg
        have hcur := timeoutEnds_cur (cfg := cfg) (env := env) e now
        have hok3 : NetOk cfg (timeoutEnds cfg env e now).net := by
          refine micros_induct (Q := fun e => NetOk cfg e.net) hm hg hok hok ?_
          intro a b _ _ hq hm; exact hq.micro hm
        generalize timeoutEnds cfg env e now = e3 at heq hml hg3 hgr hcur hok3
        have hc1 : e3.probeIndex = e.probeIndex := congrArg (fun p => p.1.1) hcur
        have hc2 : e3.probesSinceReset = e.probesSinceReset := congrArg (fun p => p.1.2) hcur
        have hc3 : e3.nextProbe = e.nextProbe := congrArg (fun p => p.2) hcur
        unfold timeoutStarts at heq
        obtain ⟨a1, a2, a3⟩ := after_probe (cfg := cfg) (env := env) (e3.fireProbeScheduler cfg env now) now
        rw [heq] at hlive hlen hf ⊢
        generalize hz : (((e3.fireProbeScheduler cfg env now).fireGossipScheduler cfg env now).firePushPullScheduler cfg env now).refreshCache = z at *
        have a4 : z.probeIndex = (e3.fireProbeScheduler cfg env now).probeIndex := congrArg (fun p => p.1.1) a1
        have a5 : z.probesSinceReset = (e3.fireProbeScheduler cfg env now).probesSinceReset := congrArg (fun p => p.1.2) a1
        have a6 : z.net.probes = (e3.fireProbeScheduler cfg env now).net.probes := congrArg (fun p => p.1) a2
        have a7 : z.net.forwards = (e3.fireProbeScheduler cfg env now).net.forwards := congrArg (fun p => p.2.1) a2
        have hids : z.core.ids = (e3.fireProbeScheduler cfg env now).core.ids := by unfold ids; rw [a3]
        by_cases hdue : ∃ t, e.nextProbe = some t ∧ t ≤ now
        · obtain ⟨t, ht, htn⟩ := hdue
          right
          refine ⟨by simp [isRound, hl, ht, htn], ?_⟩
          have hd3 : Far e3 id d := far_of hgr hc1 hd
          have hl3 : e3.core.members.length = e.core.members.length := by
            have := congrArg List.length (show e3.core.ids = e.core.ids from hgr)
            simpa [ids] using this
          have hf3 := fireProbe_far (env := env) (hc3.trans ht) htn hml hg3 hok3 (liveRemote_of a3.symm hlive)
            (by rw [← a6, ← a7]; exact hf) hd3
          rcases hf3 with hp | ⟨p1, p2, d', p3, p4⟩ | ⟨p1, p2, d', p3, p4⟩
          · exact .inl ⟨now, rfl, probing_of a2 hp⟩
          · exact .inr (.inl ⟨d', p3, far_of hids a4 p4, by omega⟩)
          · refine .inr (.inr ⟨⟨now, rfl⟩, by omega, by omega, d', ?_, far_of hids a4 p4⟩)
            rw [← a3] at p3; omega
        · left
          have hsame : e3.fireProbeScheduler cfg env now = e3 := by
            unfold fireProbeScheduler
            split
            · rfl
            · rename_i t ht
              rw [if_pos]
              by_contra hc
              exact hdue ⟨t, hc3.symm.trans ht, by omega⟩
          rw [hsame] at a4 a5 hids
          refine ⟨?_, far_of (hids.trans hgr) (a4.trans hc1) hd, a5.trans hc2⟩
          simp only [isRound, hl, decide_true, Bool.true_and]
          split
          · rename_i t ht
            simp only [decide_eq_false_iff_not]
            exact fun hh => hdue ⟨t, ht, hh⟩
          · rfl
      · left
        have : (e.step cfg env (.timeout now)).1 = e := by
          show e.handleTimeout cfg env now = e
          unfold handleTimeout
          rw [if_pos hl]
        rw [this]
        exact ⟨by simp [isRound, hl], hd, rfl⟩
    · left
      have hc := step_cur (cfg := cfg) (env := env) e op (fun now hh => h1 ⟨now, hh⟩) (fun now hh => h2 ⟨now, hh⟩) hno
      have hgr : Grows e.core (e.step cfg env op).1.core := by
        refine acts_grows (P := ActOf cfg env op) ?_ (step_acts e op) hg
        intro x hx pick now he
        subst he
        cases hx with
        | reset => exact h2 ⟨_, rfl⟩
        | resetNodes => exact hno _ rfl
      refine ⟨?_, far_of (grows_eq hgr (by omega)) (congrArg Prod.fst hc) hd, congrArg Prod.snd hc⟩
      cases op <;> first
        | exact absurd ⟨_, rfl⟩ h1
        | exact absurd ⟨_, rfl⟩ h2
        | simp [isRound]

/-! ### Histories -/

theorem probed_cons {e : Ep I A} {op : Op I A} {ops : List (Op I A)} {id : I}
    (h : ProbedDuring cfg env (e.step cfg env op).1 ops id) : ProbedDuring cfg env e (op :: ops) id := by
  obtain ⟨b, o, a, now, h1, h2, h3, h4⟩ := h
  exact ⟨op :: b, o, a, now, by rw [h1]; rfl, h2, h3, h4⟩

theorem probed_head {e : Ep I A} {op : Op I A} {ops : List (Op I A)} {id : I} {now : Nat} (hr : isRound e op = true)
    (ht : op.time? = some now) (h : Probing (e.step cfg env op).1 id now) : ProbedDuring cfg env e (op :: ops) id :=
  ⟨[], op, ops, now, rfl, hr, ht, h⟩

/-- What is assumed of every state of the window. -/
structure Window (cfg : Cfg I A) (id : I) (n : Nat) (x : Ep I A) : Prop where
  live : LiveRemote cfg x id
  len : x.core.members.length = n
  free : x.net.probes.length + x.net.forwards.length < 2 ^ 32 - 1

omit [DecidableEq A] in
theorem states_head [DecidableEq A] (e : Ep I A) (ops : List (Op I A)) : e ∈ states cfg env e ops := by
  cases ops <;> simp [states]

/-- Between two resets. -/
theorem fair_pass {id : I} {n : Nat} (ops : List (Op I A)) : ∀ {e : Ep I A} {d : Nat}, Reachable cfg env e →
    (∀ now, .resetNodes now ∉ ops) → (∀ x ∈ states cfg env e ops, Window cfg id n x) → Far e id d →
    ((∀ now, .timeout now ∉ ops) ∨ e.probesSinceReset + d + 2 ≤ n) → d + 1 ≤ rounds cfg env e ops →
    ProbedDuring cfg env e ops id := by
  induction ops with
  | nil => intro e d _ _ _ _ _ hr; simp [rounds] at hr
  | cons op ops ih =>
    intro e d h hno hw hd hs hr
    have hno' : ∀ now, .resetNodes now ∉ ops := fun now hm => hno now (List.mem_cons_of_mem _ hm)
    have hw' : ∀ x ∈ states cfg env (e.step cfg env op).1 ops, Window cfg id n x :=
      fun x hx => hw x (List.mem_cons_of_mem _ hx)
    have w0 := hw e (states_head _ _)
    have w1 := hw' _ (states_head _ _)
    have hs' : ∀ (s : Nat) (d' : Nat), s + d' ≤ e.probesSinceReset + d →
        ((∀ now, .timeout now ∉ ops) ∨ s + d' + 2 ≤ n) := by
      intro s d' hle
      rcases hs with hs | hs
      · exact .inl (fun now hm => hs now (List.mem_cons_of_mem _ hm))
      · exact .inr (by omega)
    simp only [rounds] at hr
    rcases step_fair h op (fun now he => hno now (by rw [he]; simp)) w1.live (w1.len.trans w0.len.symm) w1.free hd with
      ⟨h1, h2, h3⟩ | ⟨h1, ⟨now, h2, h3⟩ | ⟨d', h2, h3, h4⟩ | ⟨⟨now, h2⟩, h3, _⟩⟩
    · rw [h1] at hr
      exact probed_cons (ih (reachable_step h op) hno' hw' h2 (hs' _ _ (by omega)) (by simpa using hr))
    · exact probed_head h1 h2 h3
    · rw [if_pos h1] at hr
      exact probed_cons (ih (reachable_step h op) hno' hw' h3 (hs' _ _ (by omega)) (by omega))
    · rcases hs with hs | hs
      · exact absurd (by rw [h2]; simp) (hs now)
      · rw [w0.len] at h3; omega

/-- From any state. -/
theorem fair_any {id : I} {n : Nat} (ops : List (Op I A)) : ∀ {e : Ep I A} {d : Nat}, Reachable cfg env e →
    (∀ now, .resetNodes now ∉ ops) → (∀ x ∈ states cfg env e ops, Window cfg id n x) → Far e id d →
    d + n ≤ rounds cfg env e ops → ProbedDuring cfg env e ops id := by
  induction ops with
  | nil =>
    intro e d _ _ hw hd hr
    have := hd.1
    simp only [rounds] at hr
    have w := (hw e (states_head _ _)).len
    simp only [ids, List.length_map] at this
    omega
  | cons op ops ih =>
    intro e d h hno hw hd hr
    have hno' : ∀ now, .resetNodes now ∉ ops := fun now hm => hno now (List.mem_cons_of_mem _ hm)
    have hw' : ∀ x ∈ states cfg env (e.step cfg env op).1 ops, Window cfg id n x :=
      fun x hx => hw x (List.mem_cons_of_mem _ hx)
    have w0 := hw e (states_head _ _)
    have w1 := hw' _ (states_head _ _)
    simp only [rounds] at hr
    rcases step_fair h op (fun now he => hno now (by rw [he]; simp)) w1.live (w1.len.trans w0.len.symm) w1.free hd with
      ⟨h1, h2, h3⟩ | ⟨h1, ⟨now, h2, h3⟩ | ⟨d', h2, h3, h4⟩ | ⟨⟨now, h2⟩, h3, h4, d', h5, h6⟩⟩
    · rw [h1] at hr
      exact probed_cons (ih (reachable_step h op) hno' hw' h2 (by simpa using hr))
    · exact probed_head h1 h2 h3
    · rw [if_pos h1] at hr
      exact probed_cons (ih (reachable_step h op) hno' hw' h3 (by omega))
    · rw [if_pos h1] at hr
      rw [w0.len] at h5
      exact probed_cons (fair_pass ops (reachable_step h op) hno' hw' h6 (.inr (by omega)) (by omega))

end Verif.Ep
