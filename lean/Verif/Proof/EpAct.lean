import Verif.Proof.CoreAct
import Verif.Spec.Membership
/-
Every call of the endpoint acts on the membership core through elementary actions, and which actions a
call can cause.
-/
namespace Verif.Ep
open Verif Core
variable {I A : Type} [DecidableEq I] [DecidableEq A]
variable {cfg : Cfg I A} {env : Env I A}

/-- The actions a call may cause. -/
inductive ActOf (cfg : Cfg I A) (env : Env I A) : Op I A → Act I A → Prop
  | alive (src : A) (a : Alive I A) (now tk off : Nat) :
    ActOf cfg env (.packet src (.alive a) now) (.alive a (env.aliveOk tk (nodeOf a .alive)) off now)
  | suspect (src : A) (s : BadState I) (now : Nat) :
    ActOf cfg env (.packet src (.suspect s) now) (.suspect s now)
  | dead (src : A) (d : BadState I) (now : Nat) :
    ActOf cfg env (.packet src (.dead d) now) (.dead d now)
  | remoteAlive {op : Op I A} {now : Nat} (r : PushNodeState I A) (tk off : Nat) (hn : op.time? = some now)
      (hr : r ∈ op.remote) (hs : r.state = .alive) :
    ActOf cfg env op (.alive (claimOf r) (env.aliveOk tk (nodeOf (claimOf r) .alive)) off now)
  | remoteBad {op : Op I A} {now : Nat} (r : PushNodeState I A) (hn : op.time? = some now)
      (hr : r ∈ op.remote) (hs : r.state = .dead ∨ r.state = .suspect) :
    ActOf cfg env op (.suspect { incarnation := r.incarnation, node := r.id, src := cfg.localId } now)
  | remoteLeft {op : Op I A} {now : Nat} (r : PushNodeState I A) (hn : op.time? = some now)
      (hr : r ∈ op.remote) (hs : r.state = .left) :
    ActOf cfg env op (.dead { incarnation := r.incarnation, node := r.id, src := cfg.localId } now)
  | probeFailed {op : Op I A} {now : Nat} (s : BadState I) (hn : op.probeTime = some now)
      (hs : s.src = cfg.localId) : ActOf cfg env op (.suspect s now)
  | expire (now : Nat) : ActOf cfg env (.timeout now) (.expire now)
  | reset (pick : Nat → Nat) (now : Nat) : ActOf cfg env (.timeout now) (.reset pick now)
  | resetNodes (pick : Nat → Nat) (now : Nat) : ActOf cfg env (.resetNodes now) (.reset pick now)
  | updateMeta (md : Bytes) : ActOf cfg env (.updateMeta md) (.updateMeta md)
  | push {op : Op I A} (ev : Event I A) (h : ev.isMembership = false) : ActOf cfg env op (.push ev)
  | pop : ActOf cfg env .pollEvent .pop
  | dropDials : ActOf cfg env .sieveDials .dropDials
  | fail {op : Op I A} (sev : Nat) : ActOf cfg env op (.fail sev)
  | success {op : Op I A} : ActOf cfg env op .success
  | drain {op : Op I A} (o l : Nat) : ActOf cfg env op (.drain o l)
  | one {op : Op I A} (l : Nat) : ActOf cfg env op (.one l)
  | leave (now : Nat) (f : Option Bytes) : ActOf cfg env (.leave now f) (.leave now)

/-- The actions any call may cause. -/
structure Base (P : Act I A → Prop) : Prop where
  push : ∀ ev, ev.isMembership = false → P (.push ev)
  fail : ∀ s, P (.fail s)
  success : P .success
  drain : ∀ o l, P (.drain o l)
  one : ∀ l, P (.one l)

theorem base_actOf (op : Op I A) : Base (ActOf cfg env op) where
  push := fun ev h => .push ev h
  fail := .fail
  success := .success
  drain := .drain
  one := .one

variable {P : Act I A → Prop}

theorem acts_push (hb : Base P) (c : Core I A) {ev : Event I A} (h : ev.isMembership = false) :
    Acts cfg env P c (c.emit ev) := by
  refine Acts.one (.push ev) (hb.push ev h) ?_
  simp only [act, Core.emit, h, Bool.false_eq_true, if_false]

theorem acts_foldl {α : Type} (f : Ep I A → α → Ep I A) (l : List α)
    (h : ∀ e x, x ∈ l → Acts cfg env P e.core (f e x).core) (e : Ep I A) :
    Acts cfg env P e.core (l.foldl f e).core := by
  induction l generalizing e with
  | nil => exact .refl _
  | cons x l ih =>
    exact (h e x (by simp)).trans (ih (fun e y hy => h e y (List.mem_cons_of_mem _ hy)) (f e x))

theorem probeTerminateFailure_acts (hb : Base P) (e : Ep I A) (seq now : Nat)
    (hs : ∀ s : BadState I, s.src = cfg.localId → P (.suspect s now)) :
    Acts cfg env P e.core (e.probeTerminateFailure cfg env seq now).core := by
  unfold probeTerminateFailure
  split
  · exact .refl _
  · rename_i p _
    dsimp only
    split
    · split
      · exact .refl _
      · dsimp only
        split
        · exact (Acts.one (.fail _) (hb.fail _) rfl).trans (Acts.one (.suspect _ now) (hs _ rfl) rfl)
        · exact Acts.one (.fail _) (hb.fail _) rfl
    · exact acts_push hb _ rfl

theorem completeProbeSuccess_acts (hb : Base P) (e : Ep I A) (seq : Nat) (d : Bool) (payload : Bytes) (now : Nat)
    (hs : ∀ s : BadState I, s.src = cfg.localId → P (.suspect s now)) :
    Acts cfg env P e.core (e.completeProbeSuccess cfg env seq d payload now).core := by
  unfold completeProbeSuccess
  split
  · exact .refl _
  · split
    · exact probeTerminateFailure_acts hb e seq now hs
    · dsimp only
      split
      · split
        · exact (Acts.one .success hb.success rfl).trans (acts_push hb _ rfl)
        · exact Acts.one .success hb.success rfl
      · exact acts_push hb _ rfl

theorem handleAck_acts (hb : Base P) (e : Ep I A) (src : A) (seq : Nat) (payload : Bytes) (now : Nat)
    (hs : ∀ s : BadState I, s.src = cfg.localId → P (.suspect s now)) :
    Acts cfg env P e.core (e.handleAck cfg env src seq payload now).core := by
  unfold handleAck
  split
  · exact .refl _
  · split
    · exact .refl _
    · dsimp only
      split
      · split
        · exact .refl _
        · split <;> exact .refl _
      · exact completeProbeSuccess_acts hb { e with net := { e.net with acks := e.net.acks.erase seq } } _ _ _ _ hs

theorem handleNack_core (e : Ep I A) (src : A) (seq now : Nat) : (e.handleNack src seq now).core = e.core := by
  unfold handleNack; (repeat' split) <;> rfl

theorem handlePing_core (e : Ep I A) (src : A) (p : Ping I A) : (e.handlePing cfg src p).core = e.core := by
  unfold handlePing; (repeat' split) <;> rfl

theorem handleIndirectPing_core (e : Ep I A) (src : A) (p : Ping I A) (now : Nat) :
    (e.handleIndirectPing cfg env src p now).core = e.core := by
  unfold handleIndirectPing; dsimp only; (repeat' split) <;> rfl

theorem ping_core (e : Ep I A) (node : TNode I A) (now : Nat) : (e.ping cfg env node now).1.core = e.core := by
  unfold ping
  split
  · rfl
  · dsimp only
    split
    · rfl
    · split
      · rfl
      · split <;> rfl

theorem pushWithinMtu_core (e : Ep I A) (to : A) (m : Message I A) :
    (e.pushWithinMtu cfg env to m).1.core = e.core := by
  unfold pushWithinMtu; split <;> rfl

theorem sendProbe_core (e : Ep I A) (m : Member I A) (seq : Nat) :
    (e.sendProbe cfg env m seq).1.core = e.core := by
  unfold sendProbe
  dsimp only
  split
  · split
    · rfl
    · rw [pushWithinMtu_core, pushWithinMtu_core]
  · rw [pushWithinMtu_core]

theorem startProbe_core (e : Ep I A) (now : Nat) : (e.startProbe cfg env now).1.core = e.core := by
  unfold startProbe
  split
  · rfl
  · split
    · rfl
    · dsimp only
      split
      · rfl
      · rw [sendProbe_core]

theorem startPushPullDirect_core (e : Ep I A) (peer : A) (kind : PushPullKind) (now : Nat) :
    (e.startPushPullDirect cfg env peer kind now).1.core = e.core := by
  unfold startPushPullDirect; dsimp only; split <;> rfl

theorem startReliablePingDirect_core (e : Ep I A) (id : I) (peer : A) (seq d : Nat) :
    (e.startReliablePingDirect cfg env id peer seq d).1.core = e.core := by
  unfold startReliablePingDirect; dsimp only; split <;> rfl

theorem startUserMessageDirect_core (e : Ep I A) (peer : A) (payload : Bytes) (now : Nat) :
    (e.startUserMessageDirect cfg env peer payload now).1.core = e.core := by
  unfold startUserMessageDirect; dsimp only; split <;> rfl

theorem pushEvent_acts (hb : Base P) (e : Ep I A) {ev : Event I A} (h : ev.isMembership = false) :
    Acts cfg env P e.core (e.pushEvent ev).core := by
  refine Acts.one (.push ev) (hb.push ev h) ?_
  simp only [act, h, Bool.false_eq_true, if_false]
  rfl

theorem requestDial_acts (hb : Base P) (e : Ep I A) (d : Option (DialIntent A)) :
    Acts cfg env P e.core (e.requestDial d).core := by
  unfold requestDial
  split
  · exact .refl _
  · exact pushEvent_acts hb e rfl

theorem startPushPull_acts (hb : Base P) (e : Ep I A) (peer : A) (kind : PushPullKind) (now : Nat) :
    Acts cfg env P e.core (e.startPushPull cfg env peer kind now).1.core := by
  have := startPushPullDirect_core (cfg := cfg) (env := env) e peer kind now
  unfold startPushPull
  rw [← this]
  exact requestDial_acts hb _ _

theorem startReliablePing_acts (hb : Base P) (e : Ep I A) (id : I) (peer : A) (seq d : Nat) :
    Acts cfg env P e.core (e.startReliablePing cfg env id peer seq d).1.core := by
  have := startReliablePingDirect_core (cfg := cfg) (env := env) e id peer seq d
  unfold startReliablePing
  rw [← this]
  exact requestDial_acts hb _ _

theorem startUserMessage_acts (hb : Base P) (e : Ep I A) (peer : A) (payload : Bytes) (now : Nat) :
    Acts cfg env P e.core (e.startUserMessage cfg env peer payload now).1.core := by
  have := startUserMessageDirect_core (cfg := cfg) (env := env) e peer payload now
  unfold startUserMessage
  rw [← this]
  split
  · rename_i h; rw [h]; exact .refl _
  · rename_i h; rw [h]; exact requestDial_acts hb _ _

theorem dialSucceeded_core (e : Ep I A) (id now : Nat) : (e.dialSucceeded cfg id now).1.core = e.core := by
  unfold dialSucceeded
  split
  · rfl
  · dsimp only
    split
    · split <;> rfl
    · split
      · split <;> rfl
      · rfl

theorem acceptStream_core (e : Ep I A) (src : A) (now : Nat) : (e.acceptStream cfg src now).1.core = e.core := by
  unfold acceptStream; split <;> rfl

theorem askRelays_core (msg : Message I A) (l : List A) (e : Ep I A) (asked : List A) :
    (askRelays cfg env msg l e asked).1.core = e.core := by
  induction l generalizing e asked with
  | nil => rfl
  | cons a as ih => simp only [askRelays]; rw [ih, pushWithinMtu_core]

theorem startFallback_acts (hb : Base P) (e : Ep I A) (p : Probe I A) (seq : Nat) :
    Acts cfg env P e.core (e.startFallback cfg env p seq).1.core := by
  unfold startFallback
  split
  · exact .refl _
  · exact startReliablePing_acts hb _ _ _ _ _

theorem fanOutTo_acts (hb : Base P) (e : Ep I A) (p : Probe I A) (seq now : Nat) (st : Option Nat) (l : List A)
    (hs : ∀ s : BadState I, s.src = cfg.localId → P (.suspect s now)) :
    Acts cfg env P e.core (e.fanOutTo cfg env p seq now st l).core := by
  unfold fanOutTo
  dsimp only
  split
  · rw [← askRelays_core]
    exact probeTerminateFailure_acts hb _ seq now hs
  · exact Acts.of_eq (askRelays_core _ _ _ _)

theorem fanOut_acts (hb : Base P) (e : Ep I A) (seq now : Nat)
    (hs : ∀ s : BadState I, s.src = cfg.localId → P (.suspect s now)) :
    Acts cfg env P e.core (e.fanOut cfg env seq now).core := by
  unfold fanOut
  split
  · exact .refl _
  · rename_i p _
    dsimp only
    split
    · exact probeTerminateFailure_acts hb e.tickUp seq now hs
    · exact (startFallback_acts hb e.tickUp p seq).trans (fanOutTo_acts hb _ _ _ _ _ _ hs)

theorem advanceProbes_acts (hb : Base P) (e : Ep I A) (now : Nat)
    (hs : ∀ s : BadState I, s.src = cfg.localId → P (.suspect s now)) :
    Acts cfg env P e.core (e.advanceProbes cfg env now).core := by
  unfold advanceProbes
  dsimp only
  refine Acts.trans ?_ (acts_foldl _ _ (fun e s _ => probeTerminateFailure_acts hb e s now hs) _)
  exact acts_foldl _ _ (fun e s _ => fanOut_acts hb e s now hs) e.tickUp

theorem fireExpiredForwards_core (e : Ep I A) (now : Nat) : (e.fireExpiredForwards env now).core = e.core := by
  unfold fireExpiredForwards
  dsimp only
  generalize env.order _ _ = l
  have : ∀ e : Ep I A, (l.foldl (fun e seq => match e.net.forwards.get? seq with
      | none => e
      | some f => send { e with net := { e.net with
        forwards := e.net.forwards.erase seq, acks := e.net.acks.erase seq } }
        (.packet f.replyTo (.nack f.requesterSeq))) e).core = e.core := by
    induction l with
    | nil => intro e; rfl
    | cons x l ih =>
      intro e
      rw [List.foldl_cons, ih]
      split <;> rfl
  exact this e.tickUp

theorem fireExpiredIntents_core (e : Ep I A) (now : Nat) : (e.fireExpiredIntents env now).core = e.core := by
  unfold fireExpiredIntents
  dsimp only
  generalize env.order _ _ = l
  have : ∀ e : Ep I A, (l.foldl (fun (e : Ep I A) id => { e with net := dropIntent e.net id }) e).core = e.core := by
    induction l with
    | nil => intro e; rfl
    | cons x l ih => intro e; rw [List.foldl_cons, ih]
  exact this e.tickUp

theorem resetNodes_acts (e : Ep I A) (now : Nat) (hr : ∀ pick, P (.reset pick now)) :
    Acts cfg env P e.core (e.resetNodes cfg env now).core :=
  Acts.one (.reset _ now) (hr _) rfl

theorem fireProbeScheduler_acts (e : Ep I A) (now : Nat) (hr : ∀ pick, P (.reset pick now)) :
    Acts cfg env P e.core (e.fireProbeScheduler cfg env now).core := by
  unfold fireProbeScheduler
  split
  · exact .refl _
  · split
    · exact .refl _
    · dsimp only
      rw [startProbe_core]
      split
      · exact resetNodes_acts { e with probesSinceReset := e.probesSinceReset + 1 } now hr
      · exact .refl _

theorem drainUser_core (e : Ep I A) (n l : Nat) : (e.drainUser n l).1.core = e.core := rfl

theorem drainGossip_acts (hb : Base P) (e : Ep I A) :
    Acts cfg env P e.core (e.drainGossip cfg env).1.core := by
  unfold drainGossip
  dsimp only
  split
  · exact Acts.one (.one cfg.gossipMtu) (hb.one _) rfl
  · refine Acts.one (.drain COMPOUND_MAX_PART_PREFIX_LEN (compoundBudget cfg)) (hb.drain _ _) ?_
    split <;> rw [drainUser_core] <;> rfl

theorem sendAll_core (e : Ep I A) (targets : List A) (msgs : List (Message I A)) :
    (e.sendAll targets msgs).core = e.core := by
  unfold sendAll
  induction targets generalizing e with
  | nil => rfl
  | cons t ts ih => rw [List.foldl_cons, ih]; split <;> rfl

theorem fireGossipScheduler_acts (hb : Base P) (e : Ep I A) (now : Nat) :
    Acts cfg env P e.core (e.fireGossipScheduler cfg env now).core := by
  unfold fireGossipScheduler
  split
  · exact .refl _
  · split
    · exact .refl _
    · dsimp only
      split
      · exact .refl _
      · rw [sendAll_core]
        exact drainGossip_acts hb e.tickUp

theorem firePushPullScheduler_acts (hb : Base P) (e : Ep I A) (now : Nat) :
    Acts cfg env P e.core (e.firePushPullScheduler cfg env now).core := by
  unfold firePushPullScheduler
  split
  · exact .refl _
  · split
    · exact .refl _
    · dsimp only
      split
      · exact .refl _
      · exact startPushPull_acts hb e.tickUp _ _ _

theorem refreshCache_core (e : Ep I A) : e.refreshCache.core = e.core := by
  unfold refreshCache; split <;> rfl

theorem handleTimeout_acts (hb : Base P) (e : Ep I A) (now : Nat)
    (hs : ∀ s : BadState I, s.src = cfg.localId → P (.suspect s now))
    (hr : ∀ pick, P (.reset pick now)) (he : P (.expire now)) :
    Acts cfg env P e.core (e.handleTimeout cfg env now).core := by
  unfold handleTimeout
  split
  · exact .refl _
  · rename_i hl
    simp only [ne_eq, Decidable.not_not] at hl
    rw [refreshCache_core]
    refine Acts.trans ?_ (firePushPullScheduler_acts hb _ _)
    refine Acts.trans ?_ (fireGossipScheduler_acts hb _ _)
    refine Acts.trans ?_ (fireProbeScheduler_acts _ _ hr)
    rw [fireExpiredIntents_core, fireExpiredForwards_core]
    refine Acts.trans ?_ (advanceProbes_acts hb _ _ hs)
    refine Acts.one (.expire now) he ?_
    simp only [act, hl, if_true]

theorem processAlive_acts (e : Ep I A) (a : Alive I A) (now : Nat)
    (h : ∀ tk off, P (.alive a (env.aliveOk tk (nodeOf a .alive)) off now)) :
    Acts cfg env P e.core (e.processAlive cfg env a now).core :=
  Acts.one (.alive a _ _ now) (h _ _) rfl

/-- The actions of merging an entry. -/
structure Merges (cfg : Cfg I A) (env : Env I A) (P : Act I A → Prop) (r : PushNodeState I A) (now : Nat) : Prop where
  alive : r.state = .alive → ∀ tk off, P (.alive (claimOf r) (env.aliveOk tk (nodeOf (claimOf r) .alive)) off now)
  bad : r.state = .dead ∨ r.state = .suspect →
    P (.suspect { incarnation := r.incarnation, node := r.id, src := cfg.localId } now)
  left : r.state = .left → P (.dead { incarnation := r.incarnation, node := r.id, src := cfg.localId } now)

theorem mergeOne_acts (e : Ep I A) (now : Nat) (r : PushNodeState I A) (h : Merges cfg env P r now) :
    Acts cfg env P e.core (e.mergeOne cfg env now r).core := by
  unfold mergeOne
  split
  · rename_i hs; exact processAlive_acts e _ now (h.alive hs)
  · rename_i hs; exact Acts.one (.dead _ now) (h.left hs) rfl
  · rename_i hs; exact Acts.one (.suspect _ now) (h.bad (.inl hs)) rfl
  · rename_i hs; exact Acts.one (.suspect _ now) (h.bad (.inr hs)) rfl
  · exact .refl _

theorem mergeState_acts (e : Ep I A) (remote : List (PushNodeState I A)) (now : Nat)
    (h : ∀ r ∈ remote, Merges cfg env P r now) :
    Acts cfg env P e.core (e.mergeState cfg env remote now).core :=
  acts_foldl _ _ (fun e r hr => mergeOne_acts e now r (h r hr)) e

theorem mergeRemote_acts (hb : Base P) (e : Ep I A) (peer : A) (states : List (PushNodeState I A)) (ud : Bytes)
    (kind : PushPullKind) (stream now : Nat) (h : ∀ r ∈ states, Merges cfg env P r now) :
    Acts cfg env P e.core (e.mergeRemote cfg env peer states ud kind stream now).core := by
  unfold mergeRemote
  dsimp only
  split
  · exact mergeState_acts e states now h
  · exact (mergeState_acts e states now h).trans (acts_push hb _ rfl)

theorem merges_actOf {op : Op I A} {now : Nat} (hn : op.time? = some now) {r : PushNodeState I A}
    (hr : r ∈ op.remote) : Merges cfg env (ActOf cfg env op) r now where
  alive hs tk off := .remoteAlive r tk off hn hr hs
  bad hs := .remoteBad r hn hr hs
  left hs := .remoteLeft r hn hr hs

theorem farewellPayloads_core (e : Ep I A) (d : BadState I) (f : Option Bytes) :
    (e.farewellPayloads cfg env d f).1.core = e.core := by
  unfold farewellPayloads
  dsimp only
  split <;> rfl

theorem sendFarewells_core (e : Ep I A) (l : List A) (ps : List Bytes) (d : BadState I) :
    (e.sendFarewells l ps d).core = e.core := by
  unfold sendFarewells
  induction l generalizing e with
  | nil => rfl
  | cons x l ih => rw [List.foldl_cons, ih]; split <;> rfl

theorem leaveWith_acts (hb : Base P) (e : Ep I A) (now : Nat) (f : Option Bytes) (h : P (.leave now)) :
    Acts cfg env P e.core (e.leaveWith cfg env now f).core := by
  unfold leaveWith
  split
  · exact .refl _
  · rename_i hl
    simp only [ne_eq, Decidable.not_not] at hl
    have h0 : Acts cfg env P e.core (e.core.beginLeave cfg env now) := by
      refine Acts.one (.leave now) h ?_
      simp only [act, hl, if_true]
    dsimp only
    split
    · exact h0.trans (acts_push hb _ rfl)
    · rw [sendFarewells_core, farewellPayloads_core]
      exact h0

/-- Every call acts on the core through the actions it may cause. -/
theorem step_acts (e : Ep I A) (op : Op I A) :
    Acts cfg env (ActOf cfg env op) e.core (e.step cfg env op).1.core := by
  have hb := base_actOf (cfg := cfg) (env := env) op
  cases op with
  | packet src msg now =>
    simp only [step]
    unfold handlePacket
    split
    · exact .refl _
    · cases msg with
      | ping p => exact Acts.of_eq (handlePing_core _ _ _)
      | indirectPing p => exact Acts.of_eq (handleIndirectPing_core _ _ _ _)
      | ack seq payload => exact handleAck_acts hb _ _ _ _ _ (fun s hs => .probeFailed s rfl hs)
      | nack seq => exact Acts.of_eq (handleNack_core _ _ _ _)
      | suspect s => exact Acts.one (.suspect s now) (.suspect _ _ _) rfl
      | alive a => exact processAlive_acts _ _ _ (fun tk off => .alive _ _ _ _ _)
      | dead d => exact Acts.one (.dead d now) (.dead _ _ _) rfl
      | userData data => exact acts_push hb _ rfl
      | pushPull _ => exact .refl _
      | errorResponse _ => exact .refl _
  | timeout now =>
    exact handleTimeout_acts hb e now (fun s hs => .probeFailed s rfl hs) (fun pick => .reset pick now) (.expire now)
  | streamEvent ev now =>
    simp only [step]
    unfold handleStreamEvent
    cases ev with
    | payload p =>
      cases p with
      | pushPullReply peer states ud kind stream =>
        dsimp only
        split
        · exact .refl _
        · split
          · exact .refl _
          · exact mergeRemote_acts hb e.tickUp _ _ _ _ _ _ (fun r hr => merges_actOf rfl hr)
      | pushPullRequest peer states ud kind stream =>
        dsimp only
        split
        · exact .refl _
        · split
          · exact .refl _
          · exact mergeRemote_acts hb e.tickUp _ _ _ _ _ _ (fun r hr => merges_actOf rfl hr)
      | reliablePingAcked seq at_ =>
        dsimp only
        split
        · exact .refl _
        · exact completeProbeSuccess_acts hb _ _ _ _ _ (fun s hs => .probeFailed s rfl hs)
      | userData peer data =>
        dsimp only
        split
        · exact .refl _
        · exact acts_push hb _ rfl
    | reliablePingFailed seq => dsimp only; split <;> exact .refl _
    | streamClosed => exact .refl _
    | streamErrored => exact .refl _
  | mergeState remote now => exact mergeState_acts _ _ _ (fun r hr => merges_actOf rfl hr)
  | ping node now => exact Acts.of_eq (ping_core _ _ _)
  | startProbe now => exact Acts.of_eq (startProbe_core _ _)
  | startPushPull peer kind now => exact startPushPull_acts hb _ _ _ _
  | startPushPullDirect peer kind now => exact Acts.of_eq (startPushPullDirect_core _ _ _ _)
  | startReliablePing id peer seq d => exact startReliablePing_acts hb _ _ _ _ _
  | startReliablePingDirect id peer seq d => exact Acts.of_eq (startReliablePingDirect_core _ _ _ _ _)
  | startUserMessage peer payload now => exact startUserMessage_acts hb _ _ _ _
  | startUserMessageDirect peer payload now => exact Acts.of_eq (startUserMessageDirect_core _ _ _ _)
  | dialSucceeded id now => exact Acts.of_eq (dialSucceeded_core _ _ _)
  | dialFailed id => exact .refl _
  | acceptStream src now => exact Acts.of_eq (acceptStream_core _ _ _)
  | startScheduling now =>
    refine Acts.of_eq ?_
    simp only [step]
    unfold startScheduling
    split <;> rfl
  | resetNodes now => exact resetNodes_acts e now (fun pick => .resetNodes pick now)
  | leave now f => exact leaveWith_acts hb e now f (.leave now f)
  | updateMeta md =>
    simp only [step]
    unfold updateMeta
    split
    · exact .refl _
    · split
      · exact .refl _
      · rename_i h _
        refine Acts.one (.updateMeta md) (.updateMeta md) ?_
        simp only [isRunning, Bool.not_eq_true', decide_eq_false_iff_not, Decidable.not_not] at h
        simp only [act, h, if_true]
  | setAckPayload b =>
    refine Acts.of_eq ?_
    simp only [step]
    unfold setAckPayload
    (repeat' split) <;> rfl
  | setLocalState b =>
    refine Acts.of_eq ?_
    simp only [step]
    unfold setLocalState
    (repeat' split) <;> rfl
  | setResponseCompression => exact Acts.of_eq (refreshCache_core _)
  | queueUser rank b =>
    refine Acts.of_eq ?_
    simp only [step]
    unfold queueUser
    (repeat' split) <;> rfl
  | sendUserPacket to b =>
    refine Acts.of_eq ?_
    simp only [step]
    unfold sendUserPacket
    (repeat' split) <;> rfl
  | sendUserPackets to bs =>
    refine Acts.of_eq ?_
    simp only [step]
    unfold sendUserPackets sendUserPacket
    split
    · rfl
    · split
      · rfl
      · (repeat' split) <;> rfl
      · dsimp only; split <;> rfl
  | degradeHealth s => exact Acts.one (.fail s) (.fail s) rfl
  | improveHealth => exact Acts.one .success .success rfl
  | disableReliablePing id => exact .refl _
  | enableReliablePing id => exact .refl _
  | drainBroadcasts => exact Acts.one (.drain 0 U64_MAX) (.drain _ _) rfl
  | external r => exact acts_push hb _ rfl
  | pollEvent =>
    simp only [step]
    unfold pollEvent
    split
    · exact .refl _
    · rename_i h
      refine Acts.one .pop .pop ?_
      simp only [act, h, List.tail_cons]
  | pollTransmit =>
    simp only [step]
    unfold pollTransmit
    split
    · exact .refl _
    · dsimp only
      split
      · exact .refl _
      · split
        · exact acts_push hb _ rfl
        · exact .refl _
  | sieveDials => exact Acts.one .dropDials .dropDials rfl
  | requeueDial id peer d =>
    simp only [step]
    unfold requeueDial
    split
    · exact .refl _
    · exact pushEvent_acts hb e rfl

end Verif.Ep
