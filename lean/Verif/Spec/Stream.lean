import Verif.Model.Stream
/-
Specification vocabulary for reliable streams.
-/
namespace Verif.Spec

variable {I A : Type}

/-- A payload event without the time it was recorded at. -/
def eventShape : PayloadEvent I A → PayloadEvent I A
  | .reliablePingAcked seq _ => .reliablePingAcked seq 0
  | e => e

/-- What the driver finds on a stream when it looks: either the exchange failed (with nothing but the
failure to report), or its phase, the queued payloads, lifecycle reports and output. -/
inductive Outcome (I A : Type) where
  | failed
  | active (phase : Phase) (payloads : List (PayloadEvent I A)) (events : List StreamEvent)
      (output : List Bytes)
  deriving DecidableEq

/-- The outcome shown by a stream. -/
def outcome (s : Stream I A) : Outcome I A :=
  match s.phase with
  | .failed _ => .failed
  | p => .active p (s.endpointEvents.map eventShape) s.streamEvents s.outputBuf

/-- Deliver chunks at given times, then the end-of-stream mark. -/
def deliver [DecidableEq I] (CI : DataCodec I) (CA : DataCodec A) (s : Stream I A)
    (chunks : List (Bytes × Nat)) (eof : Nat) : Stream I A :=
  ((chunks.foldl (fun s c => (s.handleData CI CA c.1 c.2).1) s).handleData CI CA [] eof).1

/-- A time before the deadline of the exchange, if it has one. -/
def BeforeDeadline (s : Stream I A) (now : Nat) : Prop := ∀ d, s.deadline = some d → now < d

/-- The exchange has ended. -/
def Ended (s : Stream I A) : Prop := s.phase = .done ∨ ∃ e, s.phase = .failed e

/-- The peer sends no more bytes once the exchange has completed (an end-of-stream mark is fine). -/
def PeerQuietAfterDone [DecidableEq I] (CI : DataCodec I) (CA : DataCodec A) (r : StreamRun I A) :
    List StreamOp → Prop
  | [] => True
  | op :: ops =>
    (r.s.phase = .done → ∀ b now, op = .data b now → b = []) ∧
      PeerQuietAfterDone CI CA (r.step CI CA op) ops

/-- What an accepted connection must amount to, once the peer has sent `bytes` and closed: the bytes
are exactly one frame within the limit, holding user data, a push/pull request, or a ping addressed to
this node (answered by an ack with the same sequence number). Anything else is a failure. -/
def acceptedOutcome [DecidableEq I] (CI : DataCodec I) (CA : DataCodec A) (id : Nat) (peer : A) (me : I)
    (maxFrame : Nat) (bytes : Bytes) : Outcome I A :=
  if bytes.length > maxFrame then .failed
  else
    match parseMessage CI CA bytes with
    | .ok (.userData d) => .active .done [.userData peer d] [.closed] []
    | .ok (.pushPull pp) =>
      .active .inSending
        [.pushPullRequest peer pp.states pp.userData (if pp.join then .join else .refresh) id] [] []
    | .ok (.ping p) =>
      if p.target.id = me then
        match encodeTyped CI CA (.ack p.seq []) with
        | .ok ack => .active .inSending [] [] [ack]
        | .error _ => .failed
      else .failed
    | _ => .failed

/-- What a dialled exchange must amount to once its request is sent, the peer has answered with
`bytes` and closed. -/
def dialledOutcome [DecidableEq I] (CI : DataCodec I) (CA : DataCodec A) (id : Nat) (peer : A) (k : OutKind)
    (maxFrame : Nat) (bytes : Bytes) : Outcome I A :=
  match k with
  | .userMessage => if bytes = [] then .active .done [] [.closed] [] else .failed
  | .pushPull kind =>
    if bytes.length > maxFrame then .failed
    else
      match parseMessage CI CA bytes with
      | .ok (.pushPull pp) =>
        .active .done [.pushPullReply peer pp.states pp.userData kind id] [.closed] []
      | _ => .failed
  | .reliablePing seq =>
    if bytes.length > maxFrame then .failed
    else
      match parseMessage CI CA bytes with
      | .ok (.ack n _) => if n = seq then .active .done [.reliablePingAcked seq 0] [.closed] [] else .failed
      | _ => .failed

end Verif.Spec
