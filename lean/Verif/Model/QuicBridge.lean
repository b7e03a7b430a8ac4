import Verif.Model.Bridge
import Verif.Model.QuicConn
/-
Model of one reliable exchange over QUIC: the bridge that couples a stream state machine to one
bidirectional stream of a pooled connection.
Source: /repo/memberlist-proto/src/quic/bridge/mod.rs

The bridge never encrypts: its `encryption` is `EncryptionOptions::new()` from the start and after
`set_encryption` (quic/bridge/mod.rs:300-301, 456-459), so the field and the branches that test it are left
out. The queue `pending_out` is one run of bytes; the code keeps chunks. Failure reasons carry no texts.
`Result<(), ()>` of the methods only repeats whether the bridge failed; nobody reads it.

`got`, `put` and `late` are history variables, which nothing reads: what was read from the QUIC stream so far, in
order, up to the end of the peer's data and beyond; the bytes the QUIC stream took; and whether bytes were read
after the bridge had failed, and so after it had stopped the stream.
-/
namespace Verif

/-- What was read from a stream: bytes, or the end of the peer's data. Model only, no counterpart in the code: a
history variable. -/
inductive Got where
  | bytes (b : Bytes) | fin
  deriving DecidableEq, Repr

/-- `Bridge<I, A>`, quic/bridge/mod.rs:49-198, and the history variables. -/
structure QBridge (I A : Type) where
  stream : Stream I A
  ch : Nat
  sid : Nat
  slot : Nat := 0
  queued : Bool := false
  pendingOut : Bytes := []
  precompressed : Bool := false
  sentAny : Bool := false
  finishCalled : Bool := false
  phase : Link := .active
  deadline : Nat
  cmp : CmpOptions
  accum : Bytes := []
  max : Nat
  label : Option Bytes
  skip : Bool
  eager : Bool
  inboundValidated : Bool
  outboundWritten : Bool
  got : List Got := []
  put : Bytes := []
  late : Bool := false

/-- How the reading of a stream ended: nothing more for now, the end of the stream, a reset, or bytes that were
refused. The read loop of `pump_in`, quic/bridge/mod.rs:1153-1230. -/
inductive ReadStop where
  | pause | fin | reset | bad
  deriving DecidableEq, Repr

/-- How the writing of the queued bytes ended. The write loop of `pump_out`, quic/bridge/mod.rs:912-960. -/
inductive WriteStop where
  | all | blocked | failed
  deriving DecidableEq, Repr

namespace QBridge
variable {I A : Type}

/-- `new`, quic/bridge/mod.rs:269-345. A fresh stream has a deadline (`expect`, 291-293); the caller records
a panic if it has none. -/
def new (s : Stream I A) (ch sid : Nat) (cmp : CmpOptions) (max : Nat) (label : Option Bytes)
    (skip eager : Bool) : QBridge I A :=
  { stream := s, ch, sid, cmp, max, skip, eager
    deadline := match s.pollTimeout with
      | some d => d
      | none => 0
    label := effectiveLabel label
    inboundValidated := (effectiveLabel label).isNone
    outboundWritten := (effectiveLabel label).isNone }

/-- `is_phase_failed`, quic/bridge/mod.rs:585-587. -/
def isFailed (b : QBridge I A) : Bool :=
  match b.phase with
  | .failed _ => true
  | _ => false

/-- `is_terminal`, quic/bridge/mod.rs:1051-1053. -/
def isTerminal (b : QBridge I A) : Bool :=
  match b.phase with
  | .bothClosed | .failed _ => true
  | _ => false

/-- `observe_send_fin`, quic/bridge/mod.rs:471-477. -/
def observeSendFin (b : QBridge I A) : QBridge I A :=
  match b.phase with
  | .active => { b with phase := .sendClosed }
  | .recvClosed => { b with phase := .bothClosed }
  | _ => b

/-- `observe_recv_fin`, quic/bridge/mod.rs:486-492. -/
def observeRecvFin (b : QBridge I A) : QBridge I A :=
  match b.phase with
  | .active => { b with phase := .recvClosed, got := b.got ++ [.fin] }
  | .sendClosed => { b with phase := .bothClosed, got := b.got ++ [.fin] }
  | _ => b

/-- `fail`, quic/bridge/mod.rs:559-567. -/
def fail (b : QBridge I A) (r : LinkFail) : QBridge I A :=
  if b.isFailed then b
  else
    { b with
      stream := if b.phase = .recvClosed ∨ b.phase = .bothClosed then b.stream else b.stream.discardPending
      phase := .failed r }

/-- The queue is cleared and the bridge fails; with `reset` and `stop` this is `fail_with_retire`,
quic/bridge/mod.rs:504-533, and `fail_stopped_already_retired`, 647-652, without them. -/
def drop (b : QBridge I A) (r : LinkFail) : QBridge I A := { b with pendingOut := [] }.fail r

/-- `poll_timeout`, quic/bridge/mod.rs:611-619. -/
def pollTimeout (b : QBridge I A) : Option Nat :=
  if b.isTerminal then none
  else
    match b.stream.pollTimeout with
    | some inner => some (Nat.min inner b.deadline)
    | none => some b.deadline

/-- `label_prefix_chunk`, quic/bridge/mod.rs:40-44, for the label of the bridge. -/
def prefixBytes (b : QBridge I A) : Bytes :=
  match b.label with
  | some l => encodeLabelPrefix l
  | none => []

/-- `reliable_unit`, quic/bridge/mod.rs:360-393: the length header and the payload. -/
def unit (T : TEnv) (b : QBridge I A) (body : Bytes) : Bytes :=
  let payload := if b.precompressed then body else compressPayload T.B b.cmp body
  encodeVarint (payload.length % 2 ^ 32) ++ payload

/-- The label part of `pump_out`, quic/bridge/mod.rs:861-866. -/
def putLabel (b : QBridge I A) : QBridge I A :=
  if !b.outboundWritten && (b.eager || b.inboundValidated) then
    { b with pendingOut := b.pendingOut ++ b.prefixBytes, outboundWritten := true }
  else b

/-- What `pump_out` queues before it writes, quic/bridge/mod.rs:861-902. `poll_transmit` yields at most
once (`Bridge.pollTransmit_once`). -/
def gather (T : TEnv) (b : QBridge I A) (now : Nat) : QBridge I A :=
  let b := b.putLabel
  match b.stream.pollTransmit now with
  | (s, none) => { b with stream := s }
  | (s, some chunks) =>
    { b with stream := s, sentAny := true, pendingOut := b.pendingOut ++ b.unit T chunks.flatten }

section
variable (Q : Quinn A)

/-- The write loop of `pump_out`, quic/bridge/mod.rs:923-954: the connection, what is left in the queue and
how the loop ended. A write that takes nothing ends it, so the length bounds the number of rounds. -/
def writeLoop (sid : Nat) : Nat → Q.C → Bytes → Q.C × Bytes × WriteStop
  | 0, c, rest => (c, rest, .blocked)
  | fuel + 1, c, rest =>
    if rest = [] then (c, [], .all)
    else
      match Q.write c sid rest with
      | (c, .wrote n) => if n = 0 then (c, rest, .blocked) else writeLoop sid fuel c (rest.drop n)
      | (c, .blocked) => (c, rest, .blocked)
      | (c, .failed) => (c, rest, .failed)

/-- `pump_out` on the connection, quic/bridge/mod.rs:851-1026: gather, write, and finish the send half
once everything was written. -/
def send (T : TEnv) (b : QBridge I A) (now : Nat) (c : Q.C) : Q.C × QBridge I A :=
  let b := b.gather T now
  let w := writeLoop Q b.sid (b.pendingOut.length + 1) c b.pendingOut
  let b := { b with pendingOut := w.2.1
                    put := b.put ++ b.pendingOut.take (b.pendingOut.length - w.2.1.length) }
  match w.2.2 with
  | .failed => (Q.abandon w.1 b.sid, b.drop .transport)
  | .blocked => (w.1, b)
  | .all =>
    if b.stream.isFailed then (Q.abandon w.1 b.sid, b.drop .transport)
    else if !b.finishCalled && !b.isFailed && (b.sentAny || b.stream.isDone) then
      (Q.finish w.1 b.sid, { b with finishCalled := true })
    else (w.1, b)
end

section
variable [DecidableEq A] (Q : Quinn A)

/-- What a call on the connection of the bridge left behind. Model only, no counterpart in the code: the `&mut
Connection` given to quic/bridge/mod.rs:741 and 1153. -/
def onConn (b : QBridge I A) (t : ConnTable Q.C Q.V A) (f : Q.C → Q.C × QBridge I A) :
    QBridge I A × ConnTable Q.C Q.V A :=
  match t.on Q b.ch (fun e => e.via Q f) with
  | (t, none) => (b, t)
  | (t, some b) => (b, t)

/-- `fail_with_retire`, quic/bridge/mod.rs:504-533. -/
def failWithRetire (b : QBridge I A) (t : ConnTable Q.C Q.V A) (r : LinkFail) :
    QBridge I A × ConnTable Q.C Q.V A :=
  (b.drop r, (b.onConn Q t (fun c => (Q.abandon c b.sid, b))).2)

/-- `pump_out`, quic/bridge/mod.rs:741-1027. -/
def pumpOut (T : TEnv) (b : QBridge I A) (t : ConnTable Q.C Q.V A) (now : Nat) :
    QBridge I A × ConnTable Q.C Q.V A :=
  if b.isFailed || b.stream.isFailed then b.failWithRetire Q t .transport
  else if !b.isTerminal && !b.pendingOut.isEmpty && b.stream.pollTimeout.any (fun d => d ≤ now) then
    { b with stream := b.stream.handleTimeout now }.failWithRetire Q t .timeout
  else if now ≥ b.deadline ∧ b.stream.isDone ∧ !b.isTerminal then b.failWithRetire Q t .timeout
  else b.onConn Q t (b.send Q T now)
end

section
variable [DecidableEq I] (CI : DataCodec I) (CA : DataCodec A) (T : TEnv)

/-- The unit loop of `pump_in`, quic/bridge/mod.rs:1234-1258; the flag says that bytes were refused. -/
def takeUnits (b : QBridge I A) (now : Nat) : QBridge I A × Bool :=
  let d := Bridge.drainUnits CI CA T none b.max now (b.accum.length + 1) b.stream b.accum
  ({ b with stream := d.1, accum := d.2.1 }, decide (d.2.2 ≠ .all))

/-- What `pump_in` does with one chunk, quic/bridge/mod.rs:1181-1258. -/
def takeChunk (b : QBridge I A) (bytes : Bytes) (now : Nat) : QBridge I A × Bool :=
  let b := { b with accum := b.accum ++ bytes, got := b.got ++ [Got.bytes bytes], late := b.late || b.isFailed }
  if b.inboundValidated then b.takeUnits CI CA T now
  else
    match classifyHeader b.accum b.label b.skip with
    | .accepted n =>
      let b := { b with accum := b.accum.drop n, inboundValidated := true }
      let b := if !b.eager && !b.outboundWritten then
        { b with pendingOut := b.pendingOut ++ b.prefixBytes, outboundWritten := true } else b
      b.takeUnits CI CA T now
    | .incomplete => (b, false)
    | .rejected _ => (b, true)

variable (Q : Quinn A)

/-- The read loop of `pump_in`, quic/bridge/mod.rs:1178-1273. -/
def readLoop (now : Nat) : Nat → Q.C → QBridge I A → Q.C × QBridge I A × ReadStop
  | 0, c, b => (c, b, .pause)
  | fuel + 1, c, b =>
    match Q.readNext c b.sid with
    | (c, .chunk bytes) =>
      match b.takeChunk CI CA T bytes now with
      | (b, true) => (c, b, .bad)
      | (b, false) => readLoop now fuel c b
    | (c, .fin) => (c, b, .fin)
    | (c, .blocked) => (c, b, .pause)
    | (c, .reset) => (c, b, .reset)

/-- What `pump_in` makes of the way the reading ended, quic/bridge/mod.rs:1302-1354. -/
def readDone (now : Nat) (c : Q.C) (b : QBridge I A) : ReadStop → Q.C × QBridge I A
  | .pause => (c, b)
  | .bad => (Q.abandon c b.sid, b.drop .decode)
  | .reset => (Q.abandon c b.sid, b.drop .transport)
  | .fin =>
    let r := b.stream.handleData CI CA [] now
    let ragged := !b.accum.isEmpty
    let b := { b with stream := r.1 }
    if ragged || r.2.isSome then (Q.abandon c b.sid, b.drop .decode) else (c, b.observeRecvFin)

/-- `pump_in` on the connection, quic/bridge/mod.rs:1157-1354. -/
def receive (b : QBridge I A) (now : Nat) (c : Q.C) : Q.C × QBridge I A :=
  match Q.readStart c b.sid with
  | (c, .closedStream) => (c, b)
  | (c, .illegalOrderedRead) => (Q.abandon c b.sid, b.drop .transport)
  | (c, .ok) =>
    let r := readLoop CI CA T Q now Q.fuel c b
    readDone CI CA Q now (Q.readEnd r.1 b.sid) r.2.1 r.2.2

/-- `pump_in`, quic/bridge/mod.rs:1153-1355. -/
def pumpIn [DecidableEq A] (b : QBridge I A) (t : ConnTable Q.C Q.V A) (now : Nat) :
    QBridge I A × ConnTable Q.C Q.V A :=
  b.onConn Q t (b.receive CI CA T Q now)
end

section
variable [DecidableEq I] [DecidableEq A] (cfg : Cfg I A) (env : Env I A) (T : TEnv) (Q : Quinn A)

/-- The deadline of a response, `Duration::from_secs(5)`, quic/bridge/mod.rs:1414, 1554. -/
def RESPONSE_NS : Nat := 5000 * MS

/-- One pass of the loop of `drain_then_reap` and `drain_payload_only`, quic/bridge/mod.rs:1386-1443,
1542-1587, as in `Bridge.commitOne`. -/
def commitOne (cmp : CmpOptions) (now : Nat) (e : Ep I A) (t : ConnTable Q.C Q.V A) (b : QBridge I A)
    (ev : PayloadEvent I A) (rest : List (PayloadEvent I A)) :
    Ep I A × QBridge I A × ConnTable Q.C Q.V A :=
  let s := { b.stream with endpointEvents := rest }
  let b := { b with stream := s }
  match e.handleStreamEvent cfg env (.payload ev) now with
  | (e, none) => (e, b, t)
  | (e, some (.sendResponse p)) =>
    let dl := now + RESPONSE_NS
    let body := compressPayload T.B cmp (Ep.encodeBytes env (.pushPull p))
    (e, { b with stream := s.loadResponse body dl, precompressed := true, deadline := dl }.pumpOut Q T t now)
  | (e, some .close) => (e, b.failWithRetire Q t .admissionClosed)

/-- The loop of `drain_then_reap` and `drain_payload_only`; the last component lists the calls made to the
endpoint. The fuel is the number of events queued at the start; no pass adds one. quic/bridge/mod.rs:1378 and
1504. -/
def drainEvents (cmp : CmpOptions) (now : Nat) : Nat → Ep I A → ConnTable Q.C Q.V A → QBridge I A →
    List (Ep.Op I A) → Ep I A × QBridge I A × ConnTable Q.C Q.V A × List (Ep.Op I A)
  | 0, e, t, b, log => (e, b, t, log)
  | fuel + 1, e, t, b, log =>
    match b.stream.endpointEvents with
    | [] => (e, b, t, log)
    | ev :: rest =>
      let r := commitOne cfg env T Q cmp now e t b ev rest
      drainEvents cmp now fuel r.1 r.2.2 r.2.1 (log ++ [.streamEvent (.payload ev) now])

/-- `drain_then_reap`, quic/bridge/mod.rs:1378-1486. -/
def drainThenReap (cmp : CmpOptions) (e : Ep I A) (t : ConnTable Q.C Q.V A) (b : QBridge I A) (now : Nat) :
    Ep I A × QBridge I A × ConnTable Q.C Q.V A × List (Ep.Op I A) :=
  let r := drainEvents cfg env T Q cmp now b.stream.endpointEvents.length e t b []
  let notice : EndpointEvent I A :=
    if r.2.1.isFailed || r.2.1.stream.isFailed then .streamErrored else .streamClosed
  ((r.1.handleStreamEvent cfg env notice now).1, r.2.1, r.2.2.1, r.2.2.2 ++ [.streamEvent notice now])

/-- `drain_payload_only`, quic/bridge/mod.rs:1504-1588. -/
def drainPayloadOnly (cmp : CmpOptions) (e : Ep I A) (t : ConnTable Q.C Q.V A) (b : QBridge I A) (now : Nat) :
    Ep I A × QBridge I A × ConnTable Q.C Q.V A × List (Ep.Op I A) :=
  if b.phase = .recvClosed then drainEvents cfg env T Q cmp now b.stream.endpointEvents.length e t b []
  else (e, b, t, [])
end

end QBridge
end Verif
