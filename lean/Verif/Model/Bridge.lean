import Verif.Model.Label
import Verif.Model.Transform
import Verif.Model.Endpoint
/-
Model of one reliable exchange over plain TCP: the bridge that couples a stream state machine to the
labelled byte pipe.
Source: /repo/memberlist-proto/src/streams/bridge.rs, with the record layer `Labeled<Passthrough>`
(Model/Label.lean).

The record layer of plain TCP consumes all input it is given (`Intake::Done` or `Intake::Failed`,
streams/labeled/mod.rs:95-100, 479-493), accepts every write, has no in-band close and is not secure. So
the back-pressure loops of `intake_handshaking` and `pump_in_established` make one pass, the retained
tail `pending_inbound` stays empty and is left out, and `send_close_notify`, `set_send_capacity`,
`peer_has_closed` do nothing. The same bridge over TLS is in Model/Tls.lean. `Result<(), ()>` of the methods only repeats whether
the bridge became failed; it is left out.
-/
namespace Verif

/-- What lies outside the reliable path: the compression and AEAD backends, the random nonce of each sealed unit
(indexed by the exchange and the number of units it has sealed), and the iteration order of hash maps (indexed
by a counter). Model only, no counterpart in the code: the backends behind streams/bridge.rs and
streams/mod.rs:407-470. -/
structure TEnv where
  B : Backends
  nonce : Nat → Nat → Bytes
  order : Nat → List Nat → List Nat
  order_perm : ∀ t l, (order t l).Perm l

/-- `BridgeFailure`, bridge_phase.rs, without the texts. bridge_phase.rs:55-103. -/
inductive LinkFail where
  | timeout | transport | decode | connectionLost | admissionClosed | dialRetired
  | encryptionPolicyChanged
  deriving DecidableEq, Repr

/-- `BridgePhase`, streams/phase.rs, with `LinkState`, bridge_phase.rs. streams/phase.rs:8-15,
bridge_phase.rs:30-48. -/
inductive Link where
  | handshaking | active | sendClosed | recvClosed | bothClosed
  | failed (r : LinkFail)
  deriving DecidableEq, Repr

/-- `is_handshaking` of the labelled pipe, streams/labeled/mod.rs:505-507. -/
def Labeled.isHandshaking (s : Labeled) : Bool := s.gate.isValidating

/-- `Stream::discard_pending_events`, stream/mod.rs:311-314. -/
def Stream.discardPending {I A : Type} (s : Stream I A) : Stream I A :=
  { s with endpointEvents := [], streamEvents := [] }

/-- `Stream::is_done`, stream/mod.rs. stream/mod.rs:185-187. -/
def Stream.isDone {I A : Type} (s : Stream I A) : Bool := s.phase = .done

/-- `Stream::is_failed().is_some()`, stream/mod.rs. stream/mod.rs:190-195. -/
def Stream.isFailed {I A : Type} (s : Stream I A) : Bool :=
  match s.phase with
  | .failed _ => true
  | _ => false

/-- `StreamBridge<I, A, R>`, streams/bridge.rs:85-190. `xid` and `sealed` index the nonces. -/
structure Bridge (I A : Type) where
  xid : Nat
  sealed : Nat := 0
  stream : Option (Stream I A) := none
  records : Labeled
  sentAny : Bool := false
  finSent : Bool := false
  pendingEof : Bool := false
  phase : Link := .handshaking
  deadline : Nat
  cmp : CmpOptions
  precompressed : Bool := false
  ring : Option Keyring
  accum : Bytes := []
  max : Nat
  deriving DecidableEq, Repr

/-- How the draining of complete units ended: everything complete was taken, a unit was corrupt, or the stream
refused one. The result of the unit loop of `pump_in_established`, streams/bridge.rs:1103. -/
inductive Drained where
  | all | corrupt | refused
  deriving DecidableEq, Repr

namespace Bridge
variable {I A : Type}

section
variable (T : TEnv)

/-- `is_phase_failed`, `is_failed`, streams/bridge.rs:634-658. -/
def isFailed (b : Bridge I A) : Bool :=
  match b.phase with
  | .failed _ => true
  | _ => false

/-- `is_terminal`, streams/bridge.rs:890-895. -/
def isTerminal (b : Bridge I A) : Bool :=
  match b.phase with
  | .bothClosed | .failed _ => true
  | _ => false

/-- `new`, streams/bridge.rs:200-245. -/
def new (xid : Nat) (records : Labeled) (deadline : Nat) (cmp : CmpOptions) (ring : Option Keyring)
    (max : Nat) : Bridge I A :=
  { xid, records, deadline, cmp, ring, max }

/-- `reliable_unit`, streams/bridge.rs:255-287: the length header and the payload, in one piece. -/
def unit (b : Bridge I A) (body : Bytes) : Except TransformError Bytes :=
  let payload := if b.precompressed then body else compressPayload T.B b.cmp body
  match encryptPayload T.B b.ring (T.nonce b.xid b.sealed) payload with
  | .error e => .error (.encryption e)
  | .ok sealed => .ok (encodeVarint (sealed.length % 2 ^ 32) ++ sealed)

/-- `fail`, streams/bridge.rs:574-610. -/
def fail (b : Bridge I A) (r : LinkFail) : Bridge I A :=
  if b.isFailed then b
  else
    { b with
      stream :=
        if b.phase = .recvClosed ∨ b.phase = .bothClosed then b.stream
        else b.stream.map Stream.discardPending
      records := b.records.clearOutbound
      phase := .failed r }

/-- `retire_halves`, streams/bridge.rs:532-541. -/
def retire (b : Bridge I A) : Bridge I A := { b with finSent := true, records := b.records.read.1 }

/-- `fail_with_retire`, streams/bridge.rs:551-554. -/
def failWithRetire (b : Bridge I A) (r : LinkFail) : Bridge I A := b.retire.fail r

/-- `set_encryption`, streams/bridge.rs:368-375, on a transport that is not secure. -/
def setEncryption (b : Bridge I A) (ring : Option Keyring) : Bridge I A :=
  { b with ring := ring }.fail .encryptionPolicyChanged

/-- `set_compression`, streams/bridge.rs:389-391. -/
def setCompression (b : Bridge I A) (cmp : CmpOptions) : Bridge I A := { b with cmp := cmp }

/-- `is_handshaking`, streams/bridge.rs:400-402. -/
def isHandshaking (b : Bridge I A) : Bool := b.phase = .handshaking && b.records.isHandshaking

/-- `intake_handshaking`, streams/bridge.rs:419-466: one pass over a pipe without back-pressure. -/
def intakeHandshaking (b : Bridge I A) (data : Bytes) : Bridge I A :=
  let r := b.records.recv data
  let b := { b with records := r.1 }
  if r.2 then b.fail .transport else b

/-- `poll_transport_transmit`, streams/bridge.rs:469-471. -/
def transmit (b : Bridge I A) : Bridge I A × Bytes :=
  ({ b with records := b.records.transmit.1 }, b.records.transmit.2)

/-- `promote`, streams/bridge.rs:476-482. A fresh stream has a deadline (`expect`); a stream without one
would leave the deadline as it is. -/
def promote (b : Bridge I A) (s : Stream I A) : Bridge I A :=
  { b with
    deadline := match s.pollTimeout with
      | some d => d
      | none => b.deadline
    stream := some s
    phase := .active }

/-- `observe_send_fin`, streams/bridge.rs:492-503. -/
def observeSendFin (b : Bridge I A) : Bridge I A :=
  match b.phase with
  | .active => { b with phase := .sendClosed }
  | .recvClosed => { b with phase := .bothClosed }
  | _ => b

/-- `observe_recv_fin`, streams/bridge.rs:509-520. -/
def observeRecvFin (b : Bridge I A) : Bridge I A :=
  match b.phase with
  | .active => { b with phase := .recvClosed }
  | .sendClosed => { b with phase := .bothClosed }
  | _ => b

/-- `poll_timeout`, streams/bridge.rs:671-679. -/
def pollTimeout (b : Bridge I A) : Option Nat :=
  if b.isTerminal then none
  else
    match b.stream.bind Stream.pollTimeout with
    | some inner => some (Nat.min inner b.deadline)
    | none => some b.deadline

/-- The end of `pump_out`, streams/bridge.rs:842-878: a stream that failed while it was polled fails the
bridge; otherwise the send half is closed once, after everything was written. -/
def closeSend (b : Bridge I A) (s : Stream I A) : Bridge I A :=
  if s.isFailed then b.failWithRetire .transport
  else if !b.finSent && !b.isFailed && (b.sentAny || s.isDone) then
    { b with finSent := true }.observeSendFin
  else b

/-- `pump_out`, streams/bridge.rs:742-878. `poll_transmit` is called until it yields nothing; a second
call never yields (`Bridge.pollTransmit_once`), so the first one gathers everything. -/
def pumpOut (b : Bridge I A) (now : Nat) : Bridge I A :=
  if b.phase = .handshaking ∧ now ≥ b.deadline then b.fail .timeout
  else
    match b.stream with
    | none => b
    | some s =>
      if b.isFailed || s.isFailed then b.failWithRetire .transport
      else if now ≥ b.deadline ∧ s.isDone ∧ !b.isTerminal then b.failWithRetire .timeout
      else
        match s.pollTransmit now with
        | (s, none) => { b with stream := some s }.closeSend s
        | (s, some chunks) =>
          let b := { b with stream := some s, sentAny := true }
          match b.unit T chunks.flatten with
          | .error _ => b.failWithRetire .transport
          | .ok u => { b with records := b.records.write u, sealed := b.sealed + 1 }.closeSend s
end

section
variable [DecidableEq I] (CI : DataCodec I) (CA : DataCodec A) (T : TEnv)

/-- The unit loop of `pump_in_established`, streams/bridge.rs:1153-1178. The fuel is never exhausted: a
unit takes at least one byte (`Bridge.drainUnits_fuel`). -/
def drainUnits (ring : Option Keyring) (max now : Nat) :
    Nat → Stream I A → Bytes → Stream I A × Bytes × Drained
  | 0, s, buf => (s, buf, .all)
  | fuel + 1, s, buf =>
    match takeReliableUnit T.B ring buf max with
    | .error _ => (s, buf, .corrupt)
    | .ok none => (s, buf, .all)
    | .ok (some (plain, used)) =>
      match s.handleData CI CA plain now with
      | (s, some _) => (s, buf.drop used, .refused)
      | (s, none) => drainUnits ring max now fuel s (buf.drop used)

/-- The end-of-stream part of `pump_in_established`, streams/bridge.rs:1198-1245. -/
def endOfInput (b : Bridge I A) (s : Stream I A) (now : Nat) : Bridge I A :=
  if b.accum ≠ [] then b.failWithRetire .decode
  else
    match s.handleData CI CA [] now with
    | (s, some _) => { b with stream := some s }.failWithRetire .decode
    | (s, none) => { b with stream := some s }.observeRecvFin

/-- `pump_in_established`, streams/bridge.rs:1103-1247. -/
def pumpIn (b : Bridge I A) (s : Stream I A) (input : Bytes) (eof : Bool) (now : Nat) : Bridge I A :=
  if b.isTerminal then b
  else
    let r := b.records.recv input
    if r.2 then { b with records := r.1 }.failWithRetire .transport
    else
      let buf := b.accum ++ r.1.read.2
      let d := drainUnits CI CA T b.ring b.max now (buf.length + 1) s buf
      let b := { b with records := r.1.read.1, stream := some d.1, accum := d.2.1 }
      match d.2.2 with
      | .corrupt | .refused => b.failWithRetire .decode
      | .all => if eof then b.endOfInput CI CA d.1 now else b

/-- `handle_transport_data`, streams/bridge.rs:1029-1091; an empty slice is the end of the peer's
stream. -/
def feed (b : Bridge I A) (data : Bytes) (now : Nat) : Bridge I A :=
  if b.isTerminal then b
  else
    match b.stream with
    | none =>
      if data = [] then
        if b.records.isHandshaking then b.fail .connectionLost
        else { b with pendingEof := true }.intakeHandshaking []
      else b.intakeHandshaking data
    | some s => b.pumpIn CI CA T s data (data = []) now

/-- `replay_pending`, streams/bridge.rs:1268-1288. -/
def replay (b : Bridge I A) (now : Nat) : Bridge I A :=
  match b.stream with
  | none => b
  | some s => if b.isTerminal then b else b.pumpIn CI CA T s [] b.pendingEof now
end

section
variable [DecidableEq I] [DecidableEq A] (cfg : Cfg I A) (env : Env I A) (T : TEnv)

/-- One pass of the loop of `drain_then_reap` and `drain_payload_only`, streams/bridge.rs:1311-1359,
1418-1458, on a bridge whose stream was `s` when its first queued event `ev` was taken off (`rest` is
what stays queued): the event goes to the endpoint and the command that comes back is carried out. `cmp`
is the compression the endpoint's cached response was encoded with (`set_response_compression`,
endpoint/mod.rs:1148-1154). -/
def commitOne (cmp : CmpOptions) (now : Nat) (e : Ep I A) (b : Bridge I A) (s : Stream I A)
    (ev : PayloadEvent I A) (rest : List (PayloadEvent I A)) : Ep I A × Bridge I A :=
  let s := { s with endpointEvents := rest }
  let b := { b with stream := some s }
  match e.handleStreamEvent cfg env (.payload ev) now with
  | (e, none) => (e, b)
  | (e, some (.sendResponse p)) =>
    let dl := now + cfg.streamTimeout
    let body := compressPayload T.B cmp (Ep.encodeBytes env (.pushPull p))
    (e, { b with stream := some (s.loadResponse body dl), precompressed := true,
                 deadline := dl }.pumpOut T now)
  | (e, some .close) => (e, b.failWithRetire .admissionClosed)

/-- The loop of `drain_then_reap` and `drain_payload_only`. The third component lists the calls made to the
endpoint. The fuel is the number of events queued at the start; no pass adds one (`Bridge.drainEvents_done`).
streams/bridge.rs:1304 and 1411. -/
def drainEvents (cmp : CmpOptions) (now : Nat) :
    Nat → Ep I A → Bridge I A → List (Ep.Op I A) → Ep I A × Bridge I A × List (Ep.Op I A)
  | 0, e, b, log => (e, b, log)
  | fuel + 1, e, b, log =>
    match b.stream with
    | none => (e, b, log)
    | some s =>
      match s.endpointEvents with
      | [] => (e, b, log)
      | ev :: rest =>
        let r := commitOne cfg env T cmp now e b s ev rest
        drainEvents cmp now fuel r.1 r.2 (log ++ [.streamEvent (.payload ev) now])

/-- The number of payload events a bridge has queued. Model only, no counterpart in the code: a measure used by
the fuel of `drainEvents`. -/
def queued (b : Bridge I A) : Nat :=
  match b.stream with
  | none => 0
  | some s => s.endpointEvents.length

/-- `drain_then_reap`, streams/bridge.rs:1304-1392. -/
def drainThenReap (cmp : CmpOptions) (e : Ep I A) (b : Bridge I A) (now : Nat) :
    Ep I A × Bridge I A × List (Ep.Op I A) :=
  match b.stream with
  | none => (e, b, [])
  | some _ =>
    let r := drainEvents cfg env T cmp now b.queued e b []
    let notice : EndpointEvent I A :=
      if r.2.1.isFailed || r.2.1.stream.any Stream.isFailed then .streamErrored else .streamClosed
    ((r.1.handleStreamEvent cfg env notice now).1, r.2.1, r.2.2 ++ [.streamEvent notice now])

/-- `drain_payload_only`, streams/bridge.rs:1411-1460. -/
def drainPayloadOnly (cmp : CmpOptions) (e : Ep I A) (b : Bridge I A) (now : Nat) :
    Ep I A × Bridge I A × List (Ep.Op I A) :=
  if b.phase = .recvClosed then drainEvents cfg env T cmp now b.queued e b [] else (e, b, [])
end

end Bridge
end Verif
