import Verif.Proof.Dials
import Verif.Props.Probe
import Verif.Example.Endpoint
/-
C50: refused calls have no effect, and which calls are refused.
-/
namespace Verif.Props
open Verif Spec Ep Core
variable {I A : Type} [DecidableEq I] [DecidableEq A]
variable {cfg : Cfg I A} {env : Env I A}

/-- The error a call returned. -/
def errorOf : Out I A → Option EpErr
  | .result (.error x) => some x
  | .pingId (.error x) => some x
  | .streamIdResult (.error x) => some x
  | .dialResult (.error x) => some x
  | _ => none

/-- The call is an application ping. -/
def isPing : Op I A → Bool
  | .ping _ _ => true
  | _ => false

omit [DecidableEq I] [DecidableEq A] in
theorem sendUserPacket_error {e : Ep I A} {dst : A} {b : Bytes} {x : EpErr}
    (h : (e.sendUserPacket cfg env dst b).2 = .error x) : (e.sendUserPacket cfg env dst b).1 = e := by
  unfold sendUserPacket at h ⊢
  split
  · rfl
  · rename_i h1
    rw [if_neg h1] at h
    split
    · rfl
    · rename_i h2; rw [if_neg h2] at h; cases h

/-- C50. A call that returns an error leaves the node exactly as it was: nothing is sent, queued, recorded or reported.
The one exception is that a refused ping may use up a sequence number. -/
theorem C50_unchanged (e : Ep I A) (op : Op I A) (x : EpErr) (h : errorOf (e.step cfg env op).2 = some x) :
    (e.step cfg env op).1 = e ∨
      (isPing op = true ∧ ∃ seq, (e.step cfg env op).1 = { e with net := { e.net with nextSeq := seq } }) := by
  cases op with
  | ping node now =>
    simp only [step] at h ⊢
    unfold ping at h ⊢
    dsimp only at h ⊢
    split
    · exact .inl rfl
    · rename_i h1
      rw [if_neg h1] at h
      cases ha : allocSeq e.net with
      | none => exact .inl rfl
      | some seq =>
        rw [ha] at h
        dsimp only at h ⊢
        cases he : encodeTyped env.CI env.CA
          (.ping { seq, source := localNode cfg, target := node } : Message I A) with
        | error _ => exact .inr ⟨rfl, seq, rfl⟩
        | ok b =>
          rw [he] at h
          dsimp only at h ⊢
          split
          · exact .inr ⟨rfl, seq, rfl⟩
          · rename_i h2; rw [if_neg h2] at h; cases h
  | startUserMessage peer payload now =>
    left
    simp only [step] at h ⊢
    unfold startUserMessage startUserMessageDirect at h ⊢
    by_cases hl : e.core.lifecycle = .running
    · rw [if_neg (by simp [isRunning, hl])] at h; cases h
    · rw [if_pos (by simp [isRunning, hl])]
  | startUserMessageDirect peer payload now =>
    left
    simp only [step] at h ⊢
    unfold startUserMessageDirect at h ⊢
    by_cases hl : e.core.lifecycle = .running
    · rw [if_neg (by simp [isRunning, hl])] at h; cases h
    · rw [if_pos (by simp [isRunning, hl])]
  | updateMeta m =>
    left
    simp only [step] at h ⊢
    unfold Ep.updateMeta at h ⊢
    split
    · rfl
    · rename_i h1
      rw [if_neg h1] at h
      split
      · rfl
      · rename_i h2; rw [if_neg h2] at h; cases h
  | setAckPayload m =>
    left
    simp only [step] at h ⊢
    unfold setAckPayload at h ⊢
    split
    · rfl
    · rename_i h1
      rw [if_neg h1] at h
      split
      · rfl
      · rename_i h2; rw [if_neg h2] at h; cases h
  | setLocalState m =>
    left
    simp only [step] at h ⊢
    unfold setLocalState at h ⊢
    split
    · rfl
    · rename_i h1
      rw [if_neg h1] at h
      split
      · rfl
      · rename_i h2; rw [if_neg h2] at h; cases h
  | queueUser rank b =>
    left
    simp only [step] at h ⊢
    unfold queueUser at h ⊢
    split
    · rfl
    · rename_i h1
      rw [if_neg h1] at h
      split
      · rfl
      · rename_i h2
        rw [if_neg h2] at h
        split at h <;> cases h
  | sendUserPacket dst b =>
    left
    simp only [step] at h ⊢
    cases hr : (e.sendUserPacket cfg env dst b).2 with
    | ok _ => rw [hr] at h; cases h
    | error y => exact sendUserPacket_error hr
  | sendUserPackets dst bs =>
    left
    simp only [step] at h ⊢
    unfold sendUserPackets at h ⊢
    split
    · rfl
    · rename_i h1
      rw [if_neg h1] at h
      match bs with
      | [] => rfl
      | [one] =>
        dsimp only at h ⊢
        cases hr : (e.sendUserPacket cfg env dst one).2 with
        | ok _ => rw [hr] at h; cases h
        | error y => exact sendUserPacket_error hr
      | b :: b' :: bs =>
        dsimp only at h ⊢
        split
        · rfl
        · rename_i h2; rw [if_neg h2] at h; cases h
  | _ => cases h

/-- The calls that are refused on a node that is leaving or has left. -/
def refusedWhenStopped : Op I A → Bool
  | .ping _ _ | .startUserMessage _ _ _ | .startUserMessageDirect _ _ _ | .updateMeta _ | .setAckPayload _
  | .setLocalState _ | .queueUser _ _ | .sendUserPacket _ _ | .sendUserPackets _ _ => true
  | _ => false

/-- C50. On a node that is leaving or has left these calls all return `NotRunning`; starting a push/pull or a reliable
ping hands out an id but no dial request, and nothing waits under it. -/
theorem C50_stopped (e : Ep I A) (hr : e.core.lifecycle ≠ .running) :
    (∀ op, refusedWhenStopped op = true → errorOf (e.step cfg env op).2 = some .notRunning ∧ (e.step cfg env op).1 = e) ∧
    (∀ peer kind now, ∃ id, (e.step cfg env (.startPushPullDirect peer kind now)).2 = .dial id none ∧
      (e.step cfg env (.startPushPull peer kind now)).2 = .streamId id ∧
      ∀ x, waiting (e.step cfg env (.startPushPullDirect peer kind now)).1 x = waiting e x ∧
        waiting (e.step cfg env (.startPushPull peer kind now)).1 x = waiting e x ∧
        (e.step cfg env (.startPushPull peer kind now)).1.core = e.core) ∧
    (∀ pid peer seq d, ∃ id, (e.step cfg env (.startReliablePingDirect pid peer seq d)).2 = .dial id none ∧
      (e.step cfg env (.startReliablePing pid peer seq d)).2 = .streamId id ∧
      ∀ x, waiting (e.step cfg env (.startReliablePingDirect pid peer seq d)).1 x = waiting e x ∧
        waiting (e.step cfg env (.startReliablePing pid peer seq d)).1 x = waiting e x ∧
        (e.step cfg env (.startReliablePing pid peer seq d)).1.core = e.core) := by
  have hb : (!e.isRunning) = true := by simp [isRunning, hr]
  refine ⟨?_, ?_, ?_⟩
  · intro op hop
    cases op with
    | ping node now => simp only [step]; unfold ping; rw [if_pos hb]; exact ⟨rfl, rfl⟩
    | startUserMessage peer payload now =>
      simp only [step]; unfold startUserMessage startUserMessageDirect; rw [if_pos hb]; exact ⟨rfl, rfl⟩
    | startUserMessageDirect peer payload now =>
      simp only [step]; unfold startUserMessageDirect; rw [if_pos hb]; exact ⟨rfl, rfl⟩
    | updateMeta m => simp only [step]; unfold Ep.updateMeta; rw [if_pos hb]; exact ⟨rfl, rfl⟩
    | setAckPayload m => simp only [step]; unfold setAckPayload; rw [if_pos hb]; exact ⟨rfl, rfl⟩
    | setLocalState m => simp only [step]; unfold setLocalState; rw [if_pos hb]; exact ⟨rfl, rfl⟩
    | queueUser rank b => simp only [step]; unfold queueUser; rw [if_pos hb]; exact ⟨rfl, rfl⟩
    | sendUserPacket dst b => simp only [step]; unfold sendUserPacket; rw [if_pos hb]; exact ⟨rfl, rfl⟩
    | sendUserPackets dst b => simp only [step]; unfold sendUserPackets; rw [if_pos hb]; exact ⟨rfl, rfl⟩
    | _ => cases hop
  · intro peer kind now
    refine ⟨e.net.nextStreamId, ?_, ?_, fun x => ?_⟩
    · simp only [step]; unfold startPushPullDirect; rw [if_pos (by simp [isRunning, hr])]
    · simp only [step]; unfold startPushPull startPushPullDirect; rw [if_pos (by simp [isRunning, hr])]
    · simp only [step]; unfold startPushPull startPushPullDirect; rw [if_pos (by simp [isRunning, hr])]
      exact ⟨rfl, rfl, rfl⟩
  · intro pid peer seq d
    refine ⟨e.net.nextStreamId, ?_, ?_, fun x => ?_⟩
    · simp only [step]; unfold startReliablePingDirect; rw [if_pos (by simp [isRunning, hr])]
    · simp only [step]; unfold startReliablePing startReliablePingDirect; rw [if_pos (by simp [isRunning, hr])]
    · simp only [step]; unfold startReliablePing startReliablePingDirect; rw [if_pos (by simp [isRunning, hr])]
      exact ⟨rfl, rfl, rfl⟩

/-- C50. On a running node a ping is refused exactly if it cannot be encoded or its encoding exceeds the MTU (as long as
a sequence number is free). -/
theorem C50_ping {e : Ep I A} (h : Reachable cfg env e) (hr : e.core.lifecycle = .running) (node : TNode I A) (now : Nat)
    (hfree : e.net.probes.length + e.net.forwards.length < 2 ^ 32 - 1) :
    ∃ seq, pending e seq = none ∧ relaying e seq = none ∧ (e.step cfg env (.ping node now)).2 = .pingId
      (match encodeTyped env.CI env.CA (.ping { seq, source := { id := cfg.localId, addr := cfg.advertise }, target := node }) with
      | .error _ => .error .unencodablePingTarget
      | .ok b => if b.length ≤ cfg.gossipMtu then .ok seq else .error .pingExceedsMtu) := by
  obtain ⟨seq, hs⟩ := allocSeq_exists (reachable_netOk h) hfree
  obtain ⟨_, _, h3, h4, _⟩ := allocSeq_spec hs
  refine ⟨seq, h3, h4, ?_⟩
  simp only [step]
  unfold ping
  rw [if_neg (by simp [isRunning, hr]), hs]
  dsimp only [localNode]
  cases encodeTyped env.CI env.CA (.ping { seq, source := { id := cfg.localId, addr := cfg.advertise }, target := node } : Message I A) with
  | error _ => rfl
  | ok b =>
    dsimp only
    by_cases hb : b.length ≤ cfg.gossipMtu
    · rw [if_neg (by omega), if_pos hb]
    · rw [if_pos (by omega), if_neg hb]

/-- C50. On a running node an ack payload is refused exactly if an ack carrying it could exceed the MTU; otherwise only
the payload changes. -/
theorem C50_ackPayload (e : Ep I A) (hr : e.core.lifecycle = .running) (b : Bytes) :
    e.step cfg env (.setAckPayload b) =
      if wireLen env.CI env.CA (.ack (2 ^ 32 - 1) b : Message I A) ≤ cfg.gossipMtu then
        ({ e with net := { e.net with ackPayload := b } }, .result (.ok ()))
      else (e, .result (.error .ackPayloadExceedsMtu)) := by
  simp only [step]
  unfold setAckPayload
  rw [if_neg (by simp [isRunning, hr])]
  by_cases hb : wireLen env.CI env.CA (.ack (2 ^ 32 - 1) b : Message I A) ≤ cfg.gossipMtu
  · rw [if_neg (by omega), if_pos hb]
  · rw [if_pos (by omega), if_neg hb]

/-- C50. On a running node a non-empty local state is refused exactly if a push/pull carrying it alone exceeds the frame
limit less the reserve for the member list; otherwise it is what later push/pulls carry, and only the cached answer is
invalidated. -/
theorem C50_localState (e : Ep I A) (hr : e.core.lifecycle = .running) (b : Bytes) :
    e.step cfg env (.setLocalState b) =
      if b = [] ∨ wireLen env.CI env.CA (.pushPull { join := true, states := [], userData := b } : Message I A) ≤
          cfg.maxStreamFrameSize - LOCAL_STATE_FRAME_BUDGET then
        ({ e with localState := b, cachedDirty := true }, .result (.ok ()))
      else (e, .result (.error .localStateExceedsFrame)) := by
  simp only [step]
  unfold setLocalState
  rw [if_neg (by simp [isRunning, hr])]
  unfold localStateFits
  by_cases hb : b = [] ∨ wireLen env.CI env.CA (.pushPull { join := true, states := [], userData := b } : Message I A) ≤
          cfg.maxStreamFrameSize - LOCAL_STATE_FRAME_BUDGET
  · rw [if_neg (by simpa [or_iff_not_imp_left] using hb), if_pos hb]
  · rw [if_pos (by simpa using hb), if_neg hb]

/-- C50. On a running node a datagram for one peer is refused exactly if the user message exceeds the MTU; otherwise
exactly that message is sent to exactly that peer. -/
theorem C50_userPacket (e : Ep I A) (hr : e.core.lifecycle = .running) (dst : A) (b : Bytes) :
    e.step cfg env (.sendUserPacket dst b) =
      if wireLen env.CI env.CA (.userData b : Message I A) ≤ cfg.gossipMtu then
        ({ e with net := { e.net with transmits := e.net.transmits ++ [.packet dst (.userData b)] } }, .result (.ok ()))
      else (e, .result (.error .userPacketExceedsMtu)) := by
  simp only [step]
  unfold sendUserPacket
  rw [if_neg (by simp [isRunning, hr])]
  by_cases hb : wireLen env.CI env.CA (.userData b : Message I A) ≤ cfg.gossipMtu
  · rw [if_neg (by omega), if_pos hb]; rfl
  · rw [if_pos (by omega), if_neg hb]

/-- C50. Several messages for one peer are sent as one datagram with exactly these messages in order, or refused with no
effect; none are sent for an empty list. -/
theorem C50_userPackets (e : Ep I A) (hr : e.core.lifecycle = .running) (dst : A) (bs : List Bytes) :
    let r := e.step cfg env (.sendUserPackets dst bs)
    match bs with
    | [] => r = (e, .result (.ok ()))
    | [b] => r = e.step cfg env (.sendUserPacket dst b)
    | bs => r = (e, .result (.error .userPacketExceedsMtu)) ∨
        r = ({ e with net := { e.net with transmits := e.net.transmits ++ [.compound dst (bs.map .userData)] } }, .result (.ok ())) := by
  simp only [step]
  unfold sendUserPackets
  rw [if_neg (by simp [isRunning, hr])]
  match bs with
  | [] => rfl
  | [b] => rfl
  | b :: b' :: bs =>
    dsimp only
    split
    · exact .inl rfl
    · exact .inr rfl

/-! ### Concrete cases -/

/-- A node that has left. -/
def hStoppedNode : List (Op Nat Nat) := Ex.h1 ++ [.leave (50 * MS) none]

example : (Ex.after hStoppedNode).core.lifecycle ≠ .running := by decide +kernel
example : errorOf ((Ex.after Ex.h1).step Ex.cfg Ex.env (.ping { id := 300, addr := 102 } (60 * MS))).2 =
    some .unencodablePingTarget := by decide +kernel
example : errorOf ((Ex.after Ex.h1).step Ex.cfg Ex.env (.setAckPayload (List.replicate 1400 0))).2 =
    some .ackPayloadExceedsMtu := by decide +kernel
example : errorOf ((Ex.after Ex.h1).step Ex.cfg Ex.env (.sendUserPackets 101 [List.replicate 700 0, List.replicate 700 0])).2 =
    some .userPacketExceedsMtu := by decide +kernel
example : errorOf ((Ex.after Ex.h1).step Ex.cfg Ex.env (.sendUserPackets 101 [[1], [2]])).2 = none := by decide +kernel

end Verif.Props
