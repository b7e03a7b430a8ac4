import Verif.Model.Bridge
/-
Model of a reliable exchange over TLS: the record layer around rustls, the label gate on top of it, and the bridge
that couples a stream state machine to both.
Source: /repo/memberlist-proto/src/tls/records/mod.rs, tls/mod.rs, streams/labeled/mod.rs and streams/bridge.rs
(instantiated at `Labeled<TlsRecords>`).

rustls itself lies outside the code of the repository. It is an arbitrary machine (`Rustls`): the theorems hold for
every behaviour of its calls that keeps to the contracts of `std::io::Read` and `std::io::Write` (no more bytes are
reported than were offered, and a reader that was read to its end has nothing more until it is given something). The certificates,
the keys and the cryptography are inside that machine.
-/
namespace Verif

/-- What the record layer calls on a rustls connection, tls/records/mod.rs:95-170. `readTls` gives the number of
bytes taken, or nothing for the error that signals a full plaintext buffer; `process` gives nothing for a protocol
error, and otherwise whether the peer has closed; `drain` is the reader, read until it has nothing more
(123-145); `write` gives the number of bytes accepted; `writeTls` is `write_tls` called until it writes nothing
(347-354). -/
structure Rustls where
  C : Type
  readTls : C → Bytes → C × Option Nat
  process : C → C × Option Bool
  handshaking : C → Bool
  drain : C → C × Bytes
  write : C → Bytes → C × Nat
  writeTls : C → C × Bytes
  closeNotify : C → C
  setLimit : C → Nat → C
  read_le : ∀ c bs n, (readTls c bs).2 = some n → n ≤ bs.length
  write_le : ∀ c bs, (write c bs).2 ≤ bs.length
  drain_drain : ∀ c, (drain (drain c).1).2 = []

/-- What passes between the record layer and its two sides. Model only, no counterpart in the code: the record of
the calls, for the statements. The calls are those of tls/records/mod.rs:255-429. -/
inductive TlsEv (C : Type) where
  /-- plaintext was staged -/
  | staged (bs : Bytes)
  /-- the staged plaintext was dropped -/
  | cleared
  /-- rustls, in this state, was handed this plaintext -/
  | wrote (c : C) (bs : Bytes)
  /-- rustls was told to close its half -/
  | closed
  /-- rustls took this ciphertext -/
  | fed (bs : Bytes)
  /-- rustls wanted nothing of this ciphertext -/
  | ignored (bs : Bytes)

/-- `TlsRecords`, tls/records/mod.rs:44-69. `trace` is the record of its calls; it is model only. -/
structure TlsRecords (R : Rustls) where
  conn : R.C
  peerClosed : Bool := false
  sendLimit : Nat
  pending : Bytes := []
  closeRequested : Bool := false
  trace : List (TlsEv R.C) := []

/-- `Intake`, tls/records/mod.rs:79-86 and streams/transport.rs; `failed` is the `Err` of the inherent method
(tls/mod.rs:83-87). -/
inductive TIntake where
  | done
  | pending (n : Nat)
  | failed
  deriving DecidableEq, Repr

/-- `sized_send_limit`, tls/records/mod.rs:29-39. Saturation at `usize::MAX` is left out. -/
def sizedSendLimit (maxFrame : Nat) : Nat := Nat.max (maxFrame + maxFrame / 16 + 16 * 1024) (64 * 1024)

namespace TlsRecords
variable {R : Rustls}

/-- `TlsRecords::client` and `server`, tls/records/mod.rs:190-225, on a connection rustls has made. 64 MiB is
`DEFAULT_MAX_STREAM_FRAME_SIZE`, config/mod.rs:55. -/
def new (conn : R.C) : TlsRecords R :=
  let limit := sizedSendLimit (64 * 1024 * 1024)
  { conn := R.setLimit conn (2 * limit), sendLimit := limit }

/-- `process_new_packets` and the latch of the peer's close, tls/records/mod.rs:279-282 and 290-293. The flag is
`true` on a protocol error. -/
def process (s : TlsRecords R) : TlsRecords R × Bool :=
  match R.process s.conn with
  | (c, none) => ({ s with conn := c }, true)
  | (c, some closed) => ({ s with conn := c, peerClosed := s.peerClosed || closed }, false)

/-- The end of `handle_transport_data`, tls/records/mod.rs:289-295. -/
def finishIntake (s : TlsRecords R) (fed : Bool) : TlsRecords R × TIntake :=
  if fed then (s, .done)
  else
    match s.process with
    | (s, true) => (s, .failed)
    | (s, false) => (s, .done)

/-- The loop of `handle_transport_data`, tls/records/mod.rs:262-295. The fuel is never exhausted: a round takes at
least one byte (`TlsRecords.intake_fuel`). -/
def intakeLoop : Nat → TlsRecords R → Bytes → Nat → Bool → TlsRecords R × TIntake
  | 0, s, _, n, _ => (s, .pending n)
  | fuel + 1, s, rest, consumed, fed =>
    if rest = [] then s.finishIntake fed
    else
      match R.readTls s.conn rest with
      | (c, none) => ({ s with conn := c }, .pending consumed)
      | (c, some 0) =>
        { s with conn := c, trace := s.trace ++ [TlsEv.ignored rest] }.finishIntake fed
      | (c, some (n + 1)) =>
        let s := { s with conn := c, trace := s.trace ++ [TlsEv.fed (rest.take (n + 1))] }
        match s.process with
        | (s, true) => (s, .failed)
        | (s, false) => intakeLoop fuel s (rest.drop (n + 1)) (consumed + (n + 1)) true

/-- `handle_transport_data`, tls/records/mod.rs:255-296. -/
def intake (s : TlsRecords R) (data : Bytes) : TlsRecords R × TIntake :=
  intakeLoop (data.length + 1) s data 0 false

/-- `flush_pending`, tls/records/mod.rs:305-310. -/
def flushPending (s : TlsRecords R) : TlsRecords R :=
  if !R.handshaking s.conn && !s.pending.isEmpty then
    let w := R.write s.conn s.pending
    { s with
      conn := w.1
      pending := s.pending.drop w.2
      trace := s.trace ++ [.wrote s.conn (s.pending.take w.2)] }
  else s

/-- `flush_close`, tls/records/mod.rs:317-323. -/
def flushClose (s : TlsRecords R) : TlsRecords R :=
  let s := s.flushPending
  if s.closeRequested && s.pending.isEmpty then
    { s with conn := R.closeNotify s.conn, closeRequested := false, trace := s.trace ++ [.closed] }
  else s

/-- The loop of `poll_transport_transmit`, tls/records/mod.rs:342-363. The fuel is never exhausted if rustls comes
to an end of what it has to send (`TlsRecords.transmitLoop_flushed`). -/
def transmitLoop : Nat → TlsRecords R → Bytes → TlsRecords R × Bytes
  | 0, s, out => (s, out)
  | fuel + 1, s, out =>
    let s' := s.flushClose
    let w := R.writeTls s'.conn
    let s'' := { s' with conn := w.1 }
    if s'.pending.isEmpty || (!(s'.pending.length < s.pending.length) && w.2.isEmpty) then (s'', out ++ w.2)
    else transmitLoop fuel s'' (out ++ w.2)

/-- `poll_transport_transmit`, tls/records/mod.rs:336-365. -/
def transmit (s : TlsRecords R) : TlsRecords R × Bytes := transmitLoop (2 * s.pending.length + 2) s []

/-- `is_handshaking`, tls/records/mod.rs:369-371. -/
def isHandshaking (s : TlsRecords R) : Bool := R.handshaking s.conn

/-- `read_plaintext`, tls/records/mod.rs:374-376. -/
def read (s : TlsRecords R) : TlsRecords R × Bytes :=
  ({ s with conn := (R.drain s.conn).1 }, (R.drain s.conn).2)

/-- `write_plaintext`, tls/records/mod.rs:388-394. -/
def write (s : TlsRecords R) (bs : Bytes) : TlsRecords R × Bool :=
  if s.pending.length + bs.length > s.sendLimit then (s, false)
  else ({ s with pending := s.pending ++ bs, trace := s.trace ++ [.staged bs] }, true)

/-- `clear_outbound`, tls/records/mod.rs:399-402. -/
def clearOutbound (s : TlsRecords R) : TlsRecords R :=
  { s with pending := [], closeRequested := false, trace := s.trace ++ [.cleared] }

/-- `set_send_capacity`, tls/records/mod.rs:408-412. -/
def setSendCapacity (s : TlsRecords R) (maxFrame : Nat) : TlsRecords R :=
  { s with sendLimit := sizedSendLimit maxFrame, conn := R.setLimit s.conn (2 * sizedSendLimit maxFrame) }

/-- `send_close_notify`, tls/records/mod.rs:416-424. -/
def sendCloseNotify (s : TlsRecords R) : TlsRecords R := { s with closeRequested := true }.flushClose

/-- The calls on the record layer, tls/mod.rs:78-125. -/
inductive Op where
  | intake (data : Bytes)
  | transmit
  | read
  | write (bs : Bytes)
  | setSendCapacity (maxFrame : Nat)
  | sendCloseNotify
  | clearOutbound

/-- One call, tls/mod.rs:78-125. -/
def step (s : TlsRecords R) : Op → TlsRecords R
  | .intake data => (s.intake data).1
  | .transmit => s.transmit.1
  | .read => s.read.1
  | .write bs => (s.write bs).1
  | .setSendCapacity m => s.setSendCapacity m
  | .sendCloseNotify => s.sendCloseNotify
  | .clearOutbound => s.clearOutbound

/-- A record layer after a sequence of calls, tls/mod.rs:78-125. -/
def run (s : TlsRecords R) (ops : List Op) : TlsRecords R := ops.foldl step s
end TlsRecords

/-- `Labeled<TlsRecords>`, streams/labeled/mod.rs:301-317. `passed` is all plaintext this layer has taken from the
inner one for the label gate and the reader; it is model only. -/
structure LabeledTls (R : Rustls) where
  gate : LabelGate
  inner : TlsRecords R
  prefixEmitted : Bool := false
  postLabelTail : Bytes := []
  passed : Bytes := []

namespace LabeledTls
variable {R : Rustls}

/-- `flush_outbound_label_into_inner`, streams/labeled/mod.rs:335-353. -/
def flushLabel (s : LabeledTls R) : LabeledTls R :=
  if s.prefixEmitted then s
  else
    let g := s.gate.takePrefix
    if g.2.length = 0 then { s with gate := g.1 }
    else { s with gate := g.1, inner := (s.inner.write g.2).1, prefixEmitted := true }

/-- `dialer`, streams/labeled/mod.rs:443-461. -/
def newDialer (label : Option Bytes) (skip : Bool) (conn : R.C) : LabeledTls R :=
  ({ gate := .newDialer label skip, inner := .new conn } : LabeledTls R).flushLabel

/-- `acceptor`, streams/labeled/mod.rs:463-477. -/
def newAcceptor (label : Option Bytes) (skip : Bool) (conn : R.C) : LabeledTls R :=
  { gate := .newAcceptor label skip, inner := .new conn }

/-- `consume_inbound_label`, streams/labeled/mod.rs:367-390; the flag is `true` on rejection. -/
def consumeLabel (s : LabeledTls R) : LabeledTls R × Bool :=
  let r := s.inner.read
  let s := { s with inner := r.1, passed := s.passed ++ r.2 }
  if r.2.isEmpty then (s, false)
  else
    match s.gate.consumeInbound r.2 with
    | (gate, .validated tail) =>
      ({ s with gate := gate, postLabelTail := s.postLabelTail ++ tail }.flushLabel, false)
    | (gate, .buffering) => ({ s with gate := gate }, false)
    | (gate, .rejected) => ({ s with gate := gate }, true)

/-- `handle_transport_data`, streams/labeled/mod.rs:479-493. -/
def recv (s : LabeledTls R) (input : Bytes) : LabeledTls R × TIntake :=
  let r := s.inner.intake input
  let s := { s with inner := r.1 }
  if r.2 = .failed then (s, .failed)
  else if !s.gate.validated then
    let q := s.consumeLabel
    if q.2 then (q.1, .failed) else (q.1, r.2)
  else (s, r.2)

/-- `is_handshaking`, streams/labeled/mod.rs:505-507. -/
def isHandshaking (s : LabeledTls R) : Bool := s.gate.isValidating || s.inner.isHandshaking

/-- `read_plaintext`, streams/labeled/mod.rs:509-517. -/
def read (s : LabeledTls R) : LabeledTls R × Bytes :=
  let r := s.inner.read
  ({ s with inner := r.1, postLabelTail := [], passed := s.passed ++ r.2 }, s.postLabelTail ++ r.2)

/-- `read_plaintext` into a buffer that is thrown away, streams/bridge.rs:537-538. -/
def discard (s : LabeledTls R) : LabeledTls R := { s with inner := s.inner.read.1, postLabelTail := [] }

/-- `write_plaintext`, streams/labeled/mod.rs:519-521. -/
def write (s : LabeledTls R) (bs : Bytes) : LabeledTls R × Bool :=
  ({ s with inner := (s.inner.write bs).1 }, (s.inner.write bs).2)

/-- `poll_transport_transmit`, streams/labeled/mod.rs:495-503. -/
def transmit (s : LabeledTls R) : LabeledTls R × Bytes :=
  ({ s with inner := s.inner.transmit.1 }, s.inner.transmit.2)

/-- `clear_outbound`, streams/labeled/mod.rs:538-550. -/
def clearOutbound (s : LabeledTls R) : LabeledTls R :=
  { s with gate := s.gate.clear, inner := s.inner.clearOutbound }

/-- `send_close_notify`, streams/labeled/mod.rs:530-532. -/
def sendCloseNotify (s : LabeledTls R) : LabeledTls R := { s with inner := s.inner.sendCloseNotify }
end LabeledTls

/-- `StreamBridge<I, A, Labeled<TlsRecords>>`, streams/bridge.rs:85-185. A secure transport has no keyring
(216-224, 368-372), so the field for it is left out. `sealed` counts the units written; it is model only. -/
structure TBridge (I A : Type) (R : Rustls) where
  stream : Option (Stream I A) := none
  records : LabeledTls R
  sentAny : Bool := false
  finSent : Bool := false
  pendingInbound : Bytes := []
  pendingEof : Bool := false
  phase : Link := .handshaking
  deadline : Nat
  cmp : CmpOptions
  precompressed : Bool := false
  accum : Bytes := []
  max : Nat
  sealed : Nat := 0

namespace TBridge
variable {I A : Type} {R : Rustls}

section
variable (T : TEnv)

/-- `is_phase_failed`, `is_failed`, streams/bridge.rs:634-658. -/
def isFailed (b : TBridge I A R) : Bool :=
  match b.phase with
  | .failed _ => true
  | _ => false

/-- `is_terminal`, streams/bridge.rs:890-895. -/
def isTerminal (b : TBridge I A R) : Bool :=
  match b.phase with
  | .bothClosed | .failed _ => true
  | _ => false

/-- `new`, streams/bridge.rs:200-245. -/
def new (records : LabeledTls R) (deadline : Nat) (cmp : CmpOptions) (max : Nat) : TBridge I A R :=
  { records := { records with inner := records.inner.setSendCapacity max }, deadline, cmp, max }

/-- `reliable_unit`, streams/bridge.rs:255-287, without encryption: the length header and the payload. -/
def unit (b : TBridge I A R) (body : Bytes) : Bytes × Bytes :=
  let payload := if b.precompressed then body else compressPayload T.B b.cmp body
  (encodeVarint (payload.length % 2 ^ 32), payload)

/-- `fail`, streams/bridge.rs:574-611. -/
def fail (b : TBridge I A R) (r : LinkFail) : TBridge I A R :=
  if b.isFailed then b
  else
    { b with
      stream :=
        if b.phase = .recvClosed ∨ b.phase = .bothClosed then b.stream
        else b.stream.map Stream.discardPending
      records := b.records.clearOutbound
      phase := .failed r }

/-- `retire_halves`, streams/bridge.rs:532-539. -/
def retire (b : TBridge I A R) : TBridge I A R :=
  { b with
    finSent := true
    records := (if b.finSent then b.records else b.records.sendCloseNotify).discard }

/-- `fail_with_retire`, streams/bridge.rs:551-554. -/
def failWithRetire (b : TBridge I A R) (r : LinkFail) : TBridge I A R := b.retire.fail r

/-- `set_encryption`, streams/bridge.rs:368-375, on a secure transport: nothing changes, whatever is set. -/
def setEncryption (b : TBridge I A R) (_ : Option Keyring) : TBridge I A R := b

/-- `set_compression`, streams/bridge.rs:389-391. -/
def setCompression (b : TBridge I A R) (cmp : CmpOptions) : TBridge I A R := { b with cmp := cmp }

/-- `is_handshaking`, streams/bridge.rs:400-402. -/
def isHandshaking (b : TBridge I A R) : Bool := b.phase = .handshaking && b.records.isHandshaking

/-- `intake_handshaking`, streams/bridge.rs:419-465. A round of the loop that does not end it has consumed at least
one byte, so the fuel is never exhausted (`TBridge.intakeHandshaking_fuel`). -/
def intakeHandshaking : Nat → TBridge I A R → Bytes → TBridge I A R
  | 0, b, _ => b
  | fuel + 1, b, rest =>
    let r := b.records.recv rest
    let b := { b with records := r.1 }
    match r.2 with
    | .failed => b.fail .transport
    | .done => b
    | .pending n =>
      if !b.records.isHandshaking then { b with pendingInbound := b.pendingInbound ++ rest.drop n }
      else if n = 0 then b
      else intakeHandshaking fuel b (rest.drop n)

/-- `poll_transport_transmit`, streams/bridge.rs:469-471. -/
def transmit (b : TBridge I A R) : TBridge I A R × Bytes :=
  ({ b with records := b.records.transmit.1 }, b.records.transmit.2)

/-- `promote`, streams/bridge.rs:476-482. A fresh stream has a deadline (`expect`). -/
def promote (b : TBridge I A R) (s : Stream I A) : TBridge I A R :=
  { b with
    deadline := match s.pollTimeout with
      | some d => d
      | none => b.deadline
    stream := some s
    phase := .active }

/-- `observe_send_fin`, streams/bridge.rs:492-501. -/
def observeSendFin (b : TBridge I A R) : TBridge I A R :=
  match b.phase with
  | .active => { b with phase := .sendClosed }
  | .recvClosed => { b with phase := .bothClosed }
  | _ => b

/-- `observe_recv_fin`, streams/bridge.rs:509-518. -/
def observeRecvFin (b : TBridge I A R) : TBridge I A R :=
  match b.phase with
  | .active => { b with phase := .recvClosed }
  | .sendClosed => { b with phase := .bothClosed }
  | _ => b

/-- `poll_timeout`, streams/bridge.rs:671-679. -/
def pollTimeout (b : TBridge I A R) : Option Nat :=
  if b.isTerminal then none
  else
    match b.stream.bind Stream.pollTimeout with
    | some inner => some (Nat.min inner b.deadline)
    | none => some b.deadline

/-- The end of `pump_out`, streams/bridge.rs:847-876. -/
def closeSend (b : TBridge I A R) (s : Stream I A) : TBridge I A R :=
  if s.isFailed then b.failWithRetire .transport
  else if !b.finSent && !b.isFailed && (b.sentAny || s.isDone) then
    { b with records := b.records.sendCloseNotify, finSent := true }.observeSendFin
  else b

/-- The writing of one unit in `pump_out`, streams/bridge.rs:833-834: the header first, the payload only if the
header was admitted. The flag tells whether both were. -/
def admit (r : LabeledTls R) (u : Bytes × Bytes) : LabeledTls R × Bool :=
  let h := r.write u.1
  if h.2 then h.1.write u.2 else (h.1, false)

/-- `pump_out`, streams/bridge.rs:742-877. As in `Bridge.pumpOut` one call of `poll_transmit` gathers
everything. -/
def pumpOut (b : TBridge I A R) (now : Nat) : TBridge I A R :=
  if b.phase = .handshaking ∧ now ≥ b.deadline then b.fail .timeout
  else
    match b.stream with
    | none => b
    | some s =>
      if b.isFailed || s.isFailed then b.failWithRetire .transport
      else if now ≥ b.deadline ∧ s.isDone ∧ !b.isTerminal then b.failWithRetire .timeout
      else
        match s.pollTransmit now with
        | (s, none) => { b with stream := some s }.closeSend s
        | (s, some chunks) =>
          let b := { b with stream := some s, sentAny := true }
          let w := admit b.records (b.unit T chunks.flatten)
          if w.2 then { b with records := w.1, sealed := b.sealed + 1 }.closeSend s
          else { b with records := w.1 }.failWithRetire .transport
end

section
variable [DecidableEq I] (CI : DataCodec I) (CA : DataCodec A) (T : TEnv)

/-- The end-of-stream part of `pump_in_established`, streams/bridge.rs:1198-1234. -/
def endOfInput (b : TBridge I A R) (s : Stream I A) (now : Nat) : TBridge I A R :=
  if b.accum ≠ [] then b.failWithRetire .decode
  else
    match s.handleData CI CA [] now with
    | (s, some _) => { b with stream := some s }.failWithRetire .decode
    | (s, none) => { b with stream := some s }.observeRecvFin

/-- The loop of `pump_in_established` and what follows it, streams/bridge.rs:1113-1236. A round that does not end
the loop took ciphertext or surfaced plaintext; if rustls takes ciphertext once its plaintext has been fetched the fuel
is never exhausted (`TBridge.pumpInLoop_fuel`). -/
def pumpInLoop (eof : Bool) (now : Nat) : Nat → TBridge I A R → Stream I A → Bytes → TBridge I A R
  | 0, b, _, rest => { b with pendingInbound := b.pendingInbound ++ rest }
  | fuel + 1, b, s, rest =>
    let r := b.records.recv rest
    if r.2 = .failed then { b with records := r.1 }.failWithRetire .transport
    else
      let p := r.1.read
      let buf := b.accum ++ p.2
      let d := Bridge.drainUnits CI CA T none b.max now (buf.length + 1) s buf
      let b := { b with records := p.1, stream := some d.1, accum := d.2.1 }
      let close (b : TBridge I A R) : TBridge I A R :=
        if eof || b.records.inner.peerClosed then b.endOfInput CI CA d.1 now else b
      match d.2.2 with
      | .corrupt | .refused => b.failWithRetire .decode
      | .all =>
        match r.2 with
        | .pending n =>
          if n = 0 ∧ p.2 = [] then close { b with pendingInbound := b.pendingInbound ++ rest }
          else pumpInLoop eof now fuel b d.1 (rest.drop n)
        | _ => close b

/-- `pump_in_established`, streams/bridge.rs:1103-1237. -/
def pumpIn (b : TBridge I A R) (s : Stream I A) (input : Bytes) (eof : Bool) (now : Nat) : TBridge I A R :=
  if b.isTerminal then b else pumpInLoop CI CA T eof now (2 * input.length + 2) b s input

/-- `handle_transport_data`, streams/bridge.rs:1029-1090; an empty slice is the end of the peer's stream. -/
def feed (b : TBridge I A R) (data : Bytes) (now : Nat) : TBridge I A R :=
  if b.isTerminal then b
  else
    match b.stream with
    | none =>
      if data = [] then
        if b.records.isHandshaking then b.fail .connectionLost
        else { b with pendingEof := true }.intakeHandshaking 1 []
      else b.intakeHandshaking (data.length + 1) data
    | some s => { b with pendingInbound := [] }.pumpIn CI CA T s (b.pendingInbound ++ data) (data = []) now

/-- `replay_pending`, streams/bridge.rs:1268-1286. -/
def replay (b : TBridge I A R) (now : Nat) : TBridge I A R :=
  match b.stream with
  | none => b
  | some s =>
    if b.isTerminal then b
    else { b with pendingInbound := [] }.pumpIn CI CA T s b.pendingInbound b.pendingEof now
end

section
variable [DecidableEq I] [DecidableEq A] (cfg : Cfg I A) (env : Env I A) (T : TEnv)

/-- One pass of the loop of `drain_then_reap` and `drain_payload_only`, streams/bridge.rs:1311-1359, 1418-1458, as
`Bridge.commitOne`. -/
def commitOne (cmp : CmpOptions) (now : Nat) (e : Ep I A) (b : TBridge I A R) (s : Stream I A)
    (ev : PayloadEvent I A) (rest : List (PayloadEvent I A)) : Ep I A × TBridge I A R :=
  let s := { s with endpointEvents := rest }
  let b := { b with stream := some s }
  match e.handleStreamEvent cfg env (.payload ev) now with
  | (e, none) => (e, b)
  | (e, some (.sendResponse p)) =>
    let dl := now + cfg.streamTimeout
    let body := compressPayload T.B cmp (Ep.encodeBytes env (.pushPull p))
    (e, { b with stream := some (s.loadResponse body dl), precompressed := true,
                 deadline := dl }.pumpOut T now)
  | (e, some .close) => (e, b.failWithRetire .admissionClosed)

/-- The loop of `drain_then_reap` and `drain_payload_only`, streams/bridge.rs:1304 and 1411. The third component
lists the calls made to the endpoint; the fuel is the number of events queued at the start. -/
def drainEvents (cmp : CmpOptions) (now : Nat) :
    Nat → Ep I A → TBridge I A R → List (Ep.Op I A) → Ep I A × TBridge I A R × List (Ep.Op I A)
  | 0, e, b, log => (e, b, log)
  | fuel + 1, e, b, log =>
    match b.stream with
    | none => (e, b, log)
    | some s =>
      match s.endpointEvents with
      | [] => (e, b, log)
      | ev :: rest =>
        let r := commitOne cfg env T cmp now e b s ev rest
        drainEvents cmp now fuel r.1 r.2 (log ++ [.streamEvent (.payload ev) now])

/-- The number of payload events a bridge has queued. Model only, no counterpart in the code: a measure used by
the fuel of `drainEvents`. -/
def queued (b : TBridge I A R) : Nat :=
  match b.stream with
  | none => 0
  | some s => s.endpointEvents.length

/-- `drain_then_reap`, streams/bridge.rs:1304-1392. -/
def drainThenReap (cmp : CmpOptions) (e : Ep I A) (b : TBridge I A R) (now : Nat) :
    Ep I A × TBridge I A R × List (Ep.Op I A) :=
  match b.stream with
  | none => (e, b, [])
  | some _ =>
    let r := drainEvents cfg env T cmp now b.queued e b []
    let notice : EndpointEvent I A :=
      if r.2.1.isFailed || r.2.1.stream.any Stream.isFailed then .streamErrored else .streamClosed
    ((r.1.handleStreamEvent cfg env notice now).1, r.2.1, r.2.2 ++ [.streamEvent notice now])

/-- `drain_payload_only`, streams/bridge.rs:1411-1460. -/
def drainPayloadOnly (cmp : CmpOptions) (e : Ep I A) (b : TBridge I A R) (now : Nat) :
    Ep I A × TBridge I A R × List (Ep.Op I A) :=
  if b.phase = .recvClosed then drainEvents cfg env T cmp now b.queued e b [] else (e, b, [])

/-- The calls the coordinator makes on a bridge, streams/mod.rs. `mint` is the completion of a handshake
(`service_handshake_completions`, streams/mod.rs:1818-1943): the endpoint's stream is installed and the retained
input replayed. `reap` is the last call (`drain_then_reap` on a terminal bridge, streams/mod.rs:1560-1660); the
endpoint is whatever it is at that moment. -/
inductive TOp (I A : Type) where
  | feed (data : Bytes) (now : Nat)
  | mint (s : Stream I A) (now : Nat)
  | replay (now : Nat)
  | pump (now : Nat)
  | transmit
  | commit (cmp : CmpOptions) (e : Ep I A) (now : Nat)
  | reap (cmp : CmpOptions) (e : Ep I A) (now : Nat)
  | setCompression (cmp : CmpOptions)
  | setEncryption (ring : Option Keyring)
  | fail (r : LinkFail)

/-- One call of the coordinator, with the calls it makes to the endpoint and the bytes for the wire. A stream is
installed only in a bridge whose handshake has settled (streams/mod.rs:1818-1943), and a bridge is reaped only when
it is terminal (streams/mod.rs:1560-1660). -/
def step (b : TBridge I A R) : TOp I A → TBridge I A R × List (Ep.Op I A) × Bytes
  | .feed data now => (b.feed env.CI env.CA T data now, [], [])
  | .mint s now =>
    if b.phase = .handshaking ∧ b.records.isHandshaking = false ∧ b.stream.isNone then
      ((b.promote s).replay env.CI env.CA T now, [], [])
    else (b, [], [])
  | .replay now => (b.replay env.CI env.CA T now, [], [])
  | .pump now => (b.pumpOut T now, [], [])
  | .transmit => (b.transmit.1, [], b.transmit.2)
  | .commit cmp e now =>
    let r := b.drainPayloadOnly cfg env T cmp e now
    (r.2.1, r.2.2, [])
  | .reap cmp e now =>
    if b.isTerminal then
      let r := b.drainThenReap cfg env T cmp e now
      (r.2.1, r.2.2, [])
    else (b, [], [])
  | .setCompression cmp => (b.setCompression cmp, [], [])
  | .setEncryption ring => (b.setEncryption ring, [], [])
  | .fail r => (b.fail r, [], [])

/-- A bridge after a sequence of calls, streams/mod.rs. Model only: the state reached by the calls. -/
def run (b : TBridge I A R) (ops : List (TOp I A)) : TBridge I A R :=
  ops.foldl (fun b op => (b.step cfg env T op).1) b

/-- The calls to the endpoint made by a sequence of calls, streams/mod.rs. Model only: what was done on the way. -/
def calls (b : TBridge I A R) : List (TOp I A) → List (Ep.Op I A)
  | [] => []
  | op :: ops => (b.step cfg env T op).2.1 ++ calls (b.step cfg env T op).1 ops
end
end TBridge
end Verif
