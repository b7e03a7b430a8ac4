import Verif.Model.Proto
/-
Model of the per-exchange reliable stream state machine.
Source: /repo/memberlist-proto/src/stream/mod.rs
Error texts are dropped; the error kinds are kept. `Instant` is a natural number.
-/
namespace Verif

/-- `PushPullKind`, event/mod.rs:95-100. -/
inductive PushPullKind where
  | join | refresh
  deriving DecidableEq, Repr

/-- `OutboundKind`, stream/mod.rs:95-104. -/
inductive OutKind where
  | pushPull (k : PushPullKind)
  | reliablePing (seq : Nat)
  | userMessage
  deriving DecidableEq, Repr

/-- `StreamError`, error/mod.rs:336-363, without the texts. `panic` stands for the `expect` of
stream/mod.rs:815 and is shown unreachable. -/
inductive StreamErr where
  | timeout
  | unexpectedMessage
  | frame (e : FrameError)
  | bridge (e : BridgeError)
  | decode
  | peerClosed
  | panic
  deriving DecidableEq, Repr

/-- `StreamPhase`, stream/mod.rs:108-128. -/
inductive Phase where
  | outSending (k : OutKind)
  | outAwaiting (k : OutKind)
  | inAwaiting
  | inSending
  | done
  | failed (e : StreamErr)
  deriving DecidableEq, Repr

/-- The payload events a stream hands to the endpoint: the variants of `EndpointEvent` it can emit,
event/mod.rs:1106-1125. -/
inductive PayloadEvent (I A : Type) where
  | pushPullRequest (peer : A) (states : List (PushNodeState I A)) (userData : Bytes)
      (kind : PushPullKind) (stream : Nat)
  | pushPullReply (peer : A) (states : List (PushNodeState I A)) (userData : Bytes)
      (kind : PushPullKind) (stream : Nat)
  | reliablePingAcked (seq : Nat) (at_ : Nat)
  | userData (peer : A) (data : Bytes)
  deriving DecidableEq, Repr

/-- `StreamEvent`, event/mod.rs:1186-1191. -/
inductive StreamEvent where
  | closed
  | failed (e : StreamErr)
  deriving DecidableEq, Repr

/-- `Stream`, stream/mod.rs:138-171. -/
structure Stream (I A : Type) where
  id : Nat
  peer : A
  localId : I
  maxFrame : Nat
  phase : Phase
  inputBuf : Bytes
  outputBuf : List Bytes
  deadline : Option Nat
  endpointEvents : List (PayloadEvent I A)
  streamEvents : List StreamEvent
  deriving DecidableEq, Repr

/-- The loop of `probe_frame`, stream/mod.rs:413-450: at most five bytes, `vb` of them read so far.
`value` is a `u64`; five groups cannot overflow it. -/
def probeLoop (tag : UInt8) (bufLen maxFrame : Nat) :
    (vb value : Nat) → Bytes → Except Unit (Option (UInt8 × Nat))
  | _, _, [] => .ok none
  | vb, value, b :: bs =>
    let value' := value ||| ((b &&& 0x7f).toNat <<< (7 * vb))
    if b &&& 0x80 = 0 then
      if value' > 2 ^ 32 - 1 then .error ()
      else
        let total := 1 + (vb + 1) + value'
        if total > maxFrame then .error ()
        else if bufLen ≥ total then .ok (some (tag, total))
        else .ok none
    else if 7 * (vb + 1) ≥ 35 then .error ()
    else probeLoop tag bufLen maxFrame (vb + 1) value' bs

/-- `probe_frame`, stream/mod.rs:393-452. -/
def probeFrame (maxFrame : Nat) (buf : Bytes) : Except Unit (Option (UInt8 × Nat)) :=
  match buf with
  | [] => .ok none
  | tag :: tail => probeLoop tag buf.length maxFrame 0 0 (tail.take 5)

section
variable {I A : Type} [DecidableEq I] (CI : DataCodec I) (CA : DataCodec A)

/-- `wire::decode_message`, wire.rs:53-61. -/
def wireDecode (buf : Bytes) : Except StreamErr (Nat × Message I A) :=
  match decodeMessage buf with
  | .error e => .error (.frame e)
  | .ok (n, any) =>
    match messageFromAny CI CA any with
    | .error e => .error (.bridge e)
    | .ok m => .ok (n, m)

namespace Stream

/-- `enter_failed`, stream/mod.rs:342-377. -/
def enterFailed (s : Stream I A) (e : StreamErr) : Stream I A :=
  { s with
    inputBuf := []
    outputBuf := []
    endpointEvents := []
    streamEvents := [.failed e]
    phase := .failed e }

/-- `now >= deadline`. stream/mod.rs:235, 523. -/
def expired (s : Stream I A) (now : Nat) : Bool :=
  match s.deadline with
  | none => false
  | some d => decide (now ≥ d)

/-- `poll_transmit`, stream/mod.rs:212-274: the new state and the chunks handed out (`none` when
there is nothing to send). -/
def pollTransmit (s : Stream I A) (now : Nat) : Stream I A × Option (List Bytes) :=
  match s.phase with
  | .done | .failed _ => (s, none)
  | _ =>
    if s.expired now then (s.enterFailed .timeout, none)
    else if s.outputBuf = [] then (s, none)
    else
      let out := s.outputBuf
      let s := { s with outputBuf := [] }
      match s.phase with
      | .outSending .userMessage =>
        ({ s with phase := .done, streamEvents := s.streamEvents ++ [.closed] }, some out)
      | .outSending k => ({ s with phase := .outAwaiting k }, some out)
      | .inSending => ({ s with phase := .done, streamEvents := s.streamEvents ++ [.closed] }, some out)
      | _ => (s, some out)

/-- `poll_endpoint_event`, stream/mod.rs:291-293. -/
def pollEndpointEvent (s : Stream I A) : Stream I A × Option (PayloadEvent I A) :=
  match s.endpointEvents with
  | [] => (s, none)
  | e :: es => ({ s with endpointEvents := es }, some e)

/-- `poll_event`, stream/mod.rs:296-298. -/
def pollEvent (s : Stream I A) : Stream I A × Option StreamEvent :=
  match s.streamEvents with
  | [] => (s, none)
  | e :: es => ({ s with streamEvents := es }, some e)

/-- `poll_timeout`, stream/mod.rs:318-323. -/
def pollTimeout (s : Stream I A) : Option Nat :=
  match s.phase with
  | .done | .failed _ => none
  | _ => s.deadline

/-- `handle_timeout`, stream/mod.rs:326-340. -/
def handleTimeout (s : Stream I A) (now : Nat) : Stream I A :=
  if s.expired now then
    match s.phase with
    | .done | .failed _ => s
    | _ => s.enterFailed .timeout
  else s

/-- `Endpoint::stream_load_response`, endpoint/mod.rs:1071-1077. -/
def loadResponse (s : Stream I A) (encoded : Bytes) (deadline : Nat) : Stream I A :=
  { s with outputBuf := s.outputBuf ++ [encoded], deadline := some deadline }

/-- `dispatch_message`, stream/mod.rs:692-879. -/
def dispatch (s : Stream I A) (msg : Message I A) (now : Nat) : Except StreamErr (Stream I A) :=
  match s.phase with
  | .outAwaiting (.pushPull k) =>
    match msg with
    | .pushPull pp =>
      .ok { s with
            endpointEvents := s.endpointEvents ++ [.pushPullReply s.peer pp.states pp.userData k s.id]
            phase := .done
            streamEvents := s.streamEvents ++ [.closed] }
    | _ => .error .unexpectedMessage
  | .outAwaiting (.reliablePing probeSeq) =>
    match msg with
    | .ack seq _ =>
      if seq ≠ probeSeq then .error .unexpectedMessage
      else
        .ok { s with
              endpointEvents := s.endpointEvents ++ [.reliablePingAcked probeSeq now]
              phase := .done
              streamEvents := s.streamEvents ++ [.closed] }
    | _ => .error .unexpectedMessage
  | .outAwaiting .userMessage => .ok s
  | .inAwaiting =>
    match msg with
    | .pushPull pp =>
      let kind := if pp.join then PushPullKind.join else PushPullKind.refresh
      .ok { s with
            endpointEvents := s.endpointEvents ++ [.pushPullRequest s.peer pp.states pp.userData kind s.id]
            phase := .inSending }
    | .ping p =>
      if p.target.id ≠ s.localId then .error .unexpectedMessage
      else
        match encodeTyped CI CA (.ack p.seq []) with
        | .error _ => .error .panic
        | .ok encoded => .ok { s with outputBuf := s.outputBuf ++ [encoded], phase := .inSending }
    | .userData d =>
      .ok { s with
            endpointEvents := s.endpointEvents ++ [.userData s.peer d]
            phase := .done
            streamEvents := s.streamEvents ++ [.closed] }
    | _ => .error .unexpectedMessage
  | .outSending _ | .inSending | .done | .failed _ => .error .unexpectedMessage

/-- The phases of the post-dispatch trailing-bytes rule, stream/mod.rs:659-667. -/
def forbidsFurtherInput : Phase → Bool
  | .done | .inSending | .outSending _ => true
  | .outAwaiting _ | .inAwaiting | .failed _ => false

/-- `try_decode_frame`, stream/mod.rs:599-690. -/
def tryDecodeFrame (s : Stream I A) (now : Nat) : Except StreamErr (Stream I A) :=
  match probeFrame s.maxFrame s.inputBuf with
  | .error _ => .error .decode
  | .ok none => .ok s
  | .ok (some (_, total)) =>
    let frame := s.inputBuf.take total
    let s := { s with inputBuf := s.inputBuf.drop total }
    match wireDecode CI CA frame with
    | .error e => .error e
    | .ok (consumed, msg) =>
      if consumed ≠ total then .error .decode
      else
        match dispatch CI CA s msg now with
        | .error e => .error e
        | .ok s' =>
          if forbidsFurtherInput s'.phase ∧ s'.inputBuf ≠ [] then .error .decode else .ok s'

/-- `handle_data_inner`, stream/mod.rs:521-597. The mutations made before an error are not kept: the
only caller replaces every field they touch (`enter_failed`). -/
def handleDataInner (s : Stream I A) (data : Bytes) (now : Nat) : Except StreamErr (Stream I A) :=
  if s.expired now then .error .timeout
  else if data = [] then
    match s.phase with
    | .outAwaiting _ | .inAwaiting => .error .peerClosed
    | .outSending .userMessage => .ok s
    | .outSending _ => .error .peerClosed
    | .inSending => if s.inputBuf ≠ [] then .error .peerClosed else .ok s
    | .done | .failed _ => .ok s
  else if s.inputBuf.length + data.length > s.maxFrame then .error .decode
  else tryDecodeFrame CI CA { s with inputBuf := s.inputBuf ++ data } now

/-- `handle_data`, stream/mod.rs:464-515: the new state and the error returned to the driver. -/
def handleData (s : Stream I A) (data : Bytes) (now : Nat) : Stream I A × Option StreamErr :=
  match s.phase with
  | .failed _ => (s, none)
  | .done => if data = [] then (s, none) else (s.enterFailed .decode, some .decode)
  | _ =>
    match handleDataInner CI CA s data now with
    | .ok s' => (s', none)
    | .error e => (s.enterFailed e, some e)

end Stream
end

/-! ### Histories -/

/-- The calls a driver can make on a stream. (`discard_pending_events`, stream/mod.rs:311-314, only
empties both event queues; it is left out.) -/
inductive StreamOp where
  | data (bytes : Bytes) (now : Nat)
  | pollTransmit (now : Nat)
  | handleTimeout (now : Nat)
  | pollEndpointEvent
  | pollEvent
  | loadResponse (encoded : Bytes) (deadline : Nat)
  deriving DecidableEq, Repr

/-- A stream with everything the driver has collected from it so far. Model only, no counterpart in the code: a
stream with history variables. -/
structure StreamRun (I A : Type) where
  s : Stream I A
  events : List StreamEvent := []
  payloads : List (PayloadEvent I A) := []
  sent : List Bytes := []

section
variable {I A : Type} [DecidableEq I] (CI : DataCodec I) (CA : DataCodec A)

/-- One driver call. Model only, no counterpart in the code: it dispatches to the modelled methods. -/
def StreamRun.step (r : StreamRun I A) : StreamOp → StreamRun I A
  | .data b now => { r with s := (r.s.handleData CI CA b now).1 }
  | .pollTransmit now =>
    { r with s := (r.s.pollTransmit now).1, sent := r.sent ++ ((r.s.pollTransmit now).2.getD []) }
  | .handleTimeout now => { r with s := r.s.handleTimeout now }
  | .pollEndpointEvent =>
    { r with s := r.s.pollEndpointEvent.1, payloads := r.payloads ++ r.s.pollEndpointEvent.2.toList }
  | .pollEvent => { r with s := r.s.pollEvent.1, events := r.events ++ r.s.pollEvent.2.toList }
  | .loadResponse e d => { r with s := r.s.loadResponse e d }

/-- A whole history. Model only, no counterpart in the code: a history of calls. -/
def StreamRun.run (r : StreamRun I A) (ops : List StreamOp) : StreamRun I A :=
  ops.foldl (StreamRun.step CI CA) r

/-- The streams the endpoint creates: an accepted connection (`accept_stream`, endpoint/mod.rs:3448-3480)
or a dialled one with its request queued (`dial_succeeded`, endpoint/mod.rs:3396-3443). -/
def Stream.fresh (id : Nat) (peer : A) (localId : I) (maxFrame : Nat) (deadline : Nat) :
    Option (OutKind × Bytes) → Stream I A
  | none => ⟨id, peer, localId, maxFrame, .inAwaiting, [], [], some deadline, [], []⟩
  | some (k, req) =>
    ⟨id, peer, localId, maxFrame, .outSending k, [], if req = [] then [] else [req], some deadline, [], []⟩
end

end Verif
