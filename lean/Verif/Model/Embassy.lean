import Verif.Model.Core

/-!
The reliable plane of the embassy driver: one slot of its socket pool, as in
memberlist-embassy/src/mailbox.rs, worker.rs and stream_io/mod.rs (paths below are relative to
memberlist-embassy/src).

A slot is a mailbox shared by the engine, which reads and writes it synchronously, and by an asynchronous
worker that owns the TCP socket. The worker's program is cut at its awaits: a step of the worker runs from
one await to the next, or stops early where that makes a model step smaller, and anything the engine may do
may happen between two steps. The socket is not modelled: every result of a socket operation is chosen by the
schedule. The two rings are lists of bytes, and their capacities are kept.

Not modelled: the shared wake of the pump (`pump_wake`), the free-list of the driver, the socket's timeout and
the ports. `reset_socket` in the arm of `run_slot` for a close or an abort on a slot that is not established
(worker.rs:195-199) is one step, for the socket is then closed and has nothing to flush: it was created or
reset, or has been aborted and flushed by the arm above it.
-/

namespace Verif.Embassy

/-- `Command`, mailbox.rs:26-39. -/
inductive Cmd (A : Type) where
  | idle
  | listen (port : Nat)
  | dial (remote : A)
  | close
  | abort
deriving DecidableEq, Repr

/-- `Mailbox`, mailbox.rs:46-89. -/
structure Mailbox (A : Type) where
  command : Cmd A
  established : Bool
  isOpen : Bool
  acceptedPeer : Option A
  peerFin : Bool
  sockSendQueue : Nat
  inbound : Bytes
  outbound : Bytes
  inCap : Nat
  outCap : Nat
  resetDone : Bool
deriving DecidableEq, Repr

/-- `Mailbox::new`, mailbox.rs:98-114. -/
def Mailbox.new (A : Type) (inCap outCap : Nat) : Mailbox A :=
  { command := .idle, established := false, isOpen := false, acceptedPeer := none, peerFin := false,
    sockSendQueue := 0, inbound := [], outbound := [], inCap := inCap, outCap := outCap, resetDone := true }

/-- `Mailbox::reset`, mailbox.rs:120-132. -/
def Mailbox.reset {A : Type} (m : Mailbox A) : Mailbox A :=
  { m with
    command := .idle, established := false, isOpen := false, acceptedPeer := none, peerFin := false,
    sockSendQueue := 0, inbound := [], outbound := [], resetDone := true }

/-- Where the worker of a slot stands: the awaits of `run_slot`, `run_established` and `reset_socket`,
worker.rs:59-454, and the tops of the two loops. `we` and `peer` are the locals `we_finned` and
`peer_finned`. -/
inductive Pc (A : Type) where
  /-- The top of the loop of `run_slot`, 77. -/
  | top
  /-- An idle slot waits for its command wake, 201-203. -/
  | idle
  /-- `select(socket.accept(port), cmd_wake.wait())`, 102. -/
  | accepting (port : Nat)
  /-- The flush after an abandoned listen, 132-135. -/
  | relisten
  /-- `select(socket.connect(remote), cmd_wake.wait())`, 154. -/
  | dialing (remote : A)
  /-- The top of the loop of `run_established`, 237. -/
  | est (we peer : Bool)
  /-- The flush after an abort, 267. -/
  | aborting
  /-- The flush that ends a graceful close, 296. -/
  | finishing
  /-- `socket.write(&chunk)`, 327. -/
  | writing (chunk : Bytes) (we peer : Bool)
  /-- The flush after a write, 339. -/
  | flushing (we peer : Bool)
  /-- Waiting for the command wake of an established slot, 364-367 and 377-382. -/
  | parked (we peer : Bool)
  /-- `select(socket.read(&mut tmp[..cap]), cmd_wake.wait())`, 385. -/
  | reading (cap : Nat) (we peer : Bool)
  /-- The flush of `reset_socket`, 452. -/
  | resetting
deriving DecidableEq, Repr

/-- A slot of the pool: its mailbox, whether its command wake is latched (`SlotWake`, a one-shot signal,
stream_io/mod.rs:38-40) and its worker. -/
structure Slot (A : Type) where
  mail : Mailbox A
  wake : Bool
  pc : Pc A
deriving DecidableEq, Repr

/-- A slot when its worker is started: `Mailbox::new` and a fresh signal, memberlist/mod.rs:412-421. -/
def Slot.new (A : Type) (inCap outCap : Nat) : Slot A :=
  { mail := Mailbox.new A inCap outCap, wake := false, pc := .top }

/-- What may be seen of a slot from outside: the calls its worker makes on the socket and what the socket
answers, and what the engine hands in and takes out. -/
inductive Obs (A : Type) where
  /-- The worker calls `socket.accept(port)`. -/
  | accept (port : Nat)
  /-- The worker calls `socket.connect(remote)`. -/
  | connect (remote : A)
  /-- The socket yields bytes it has received. -/
  | read (bytes : Bytes)
  /-- The socket reports that the peer has finished. -/
  | fin
  /-- The socket reports that the connection failed. -/
  | failed
  /-- The socket takes bytes to transmit. -/
  | wrote (bytes : Bytes)
  /-- The worker calls `socket.close()`. -/
  | close
  /-- The worker calls `socket.abort()`. -/
  | abort
  /-- The engine takes received bytes from the slot. -/
  | handed (bytes : Bytes)
  /-- The slot takes bytes the engine wants sent. -/
  | accepted (bytes : Bytes)
deriving DecidableEq, Repr

/-! ### The engine's side -/

section Engine

variable {A : Type}

/-- `EmbassyStream::post`, stream_io/mod.rs:73-78. -/
def Slot.post (s : Slot A) (c : Cmd A) : Slot A :=
  { s with mail := { s.mail with command := c }, wake := true }

/-- `reuse_ready`, stream_io/mod.rs:107-119. -/
def Slot.reuseReady (s : Slot A) : Bool := s.mail.resetDone

/-- `accepted_peer`, stream_io/mod.rs:135-140. -/
def Slot.acceptedPeer (s : Slot A) : Option A := s.mail.acceptedPeer

/-- `may_send`, stream_io/mod.rs:160-166. -/
def Slot.maySend (s : Slot A) : Bool :=
  s.mail.established && decide (s.mail.outbound.length < s.mail.outCap)

/-- `is_open`, stream_io/mod.rs:176-178. -/
def Slot.isOpen (s : Slot A) : Bool := s.mail.isOpen

/-- `recv_finished`, stream_io/mod.rs:184-192. -/
def Slot.recvFinished (s : Slot A) : Bool := s.mail.peerFin && s.mail.inbound.isEmpty

/-- `send_queue`, stream_io/mod.rs:242-249. -/
def Slot.sendQueue (s : Slot A) : Nat := s.mail.outbound.length + s.mail.sockSendQueue

/-- `recv`, stream_io/mod.rs:196-224, into a buffer of `n` bytes. -/
def Slot.recv (s : Slot A) (n : Nat) : Slot A × Option Bytes :=
  if s.mail.inbound.isEmpty then (s, none)
  else
    ({ s with
       mail := { s.mail with inbound := s.mail.inbound.drop n }
       wake := s.wake || decide (s.mail.inCap ≤ s.mail.inbound.length) },
     some (s.mail.inbound.take n))

/-- `send`, stream_io/mod.rs:226-240: the number of bytes taken. -/
def Slot.send (s : Slot A) (bytes : Bytes) : Slot A × Nat :=
  let take := min (s.mail.outCap - s.mail.outbound.length) bytes.length
  ({ s with
     mail := { s.mail with outbound := s.mail.outbound ++ bytes.take take }
     wake := s.wake || decide (0 < take) }, take)

/-- What the engine does to a slot: the mutating calls of `StreamIo`, stream_io/mod.rs:123-259. -/
inductive Call (A : Type) where
  | listen (port : Nat)
  | connect (remote : A)
  | recv (n : Nat)
  | send (bytes : Bytes)
  | close
  | abort
deriving DecidableEq, Repr

/-- When the engine makes a call: it listens and dials only on a slot that `reuse_ready` passes
(memberlist-embedded/src/engine/mod.rs:1359, 2351, 2441) and sends only where `may_send` holds (1735). -/
def Slot.allows (s : Slot A) : Call A → Bool
  | .listen _ => s.reuseReady
  | .connect _ => s.reuseReady
  | .send _ => s.maySend
  | _ => true

/-- A call of the engine: `listen`, `connect`, `recv`, `send`, `close` and `abort`,
stream_io/mod.rs:123-133, 144-156, 196-240, 253-259. A listen on port 0 is refused. -/
def Slot.call (s : Slot A) : Call A → Slot A × List (Obs A)
  | .listen p => if p = 0 then (s, []) else (s.post (.listen p), [])
  | .connect r => (s.post (.dial r), [])
  | .recv n =>
    match s.recv n with
    | (s', some b) => (s', [.handed b])
    | (s', none) => (s', [])
  | .send b => ((s.send b).1, [.accepted (b.take (s.send b).2)])
  | .close => (s.post .close, [])
  | .abort => (s.post .abort, [])

end Engine

/-! ### The worker -/

/-- What a worker wakes up to: its command wake, or the result of the socket operation it awaits. `q` is
`socket.send_queue()` when the worker reads it next. -/
inductive Wakeup (A : Type) where
  /-- The worker runs from the top of a loop to its next await. -/
  | run (q : Nat)
  /-- The command wake. -/
  | woke
  /-- `accept` or `connect` succeeded; `peer` is `socket.remote_endpoint()`. -/
  | up (peer : Option A) (q : Nat)
  /-- The operation failed. -/
  | err
  /-- `read` returned bytes. -/
  | data (bytes : Bytes) (q : Nat)
  /-- `read` returned no bytes: the peer has finished. -/
  | eof (q : Nat)
  /-- `write` took the first `n` bytes. -/
  | wrote (n : Nat) (q : Nat)
  /-- `flush` returned, whether or not it succeeded. -/
  | flushed (q : Nat)
deriving DecidableEq, Repr

/-- `READ_CHUNK`, worker.rs:32. -/
def readChunk : Nat := 1024

section Worker

variable {A : Type}

/-- One pass of the loop of `run_slot` up to its await, worker.rs:77-102, 139-154, 195-203. -/
def Slot.runTop (s : Slot A) : Slot A × List (Obs A) :=
  match s.mail.command with
  | .listen p =>
    ({ mail := { s.mail with resetDone := false }, wake := false, pc := .accepting p }, [.accept p])
  | .dial r =>
    ({ mail := { s.mail with resetDone := false }, wake := false, pc := .dialing r }, [.connect r])
  | .close => ({ s with mail := s.mail.reset, pc := .top }, [.abort])
  | .abort => ({ s with mail := s.mail.reset, pc := .top }, [.abort])
  | .idle => ({ s with pc := .idle }, [])

/-- The part of a pass of `run_established` behind its command, worker.rs:284-385: the end of a graceful
close, the next write, the two parks and the next read. `hasOut` is the snapshot taken at the top of the
pass. -/
def Slot.runIo (s : Slot A) (hasOut we peer : Bool) : Slot A :=
  if we && peer && (s.mail.inbound.isEmpty && s.mail.outbound.isEmpty) then { s with pc := .finishing }
  else if hasOut && !we then { s with pc := .writing s.mail.outbound we peer }
  else if peer then { s with pc := .parked we peer }
  else
    let room := s.mail.inCap - s.mail.inbound.length
    if room = 0 then { s with pc := .parked we peer }
    else { s with pc := .reading (min room readChunk) we peer }

/-- One pass of the loop of `run_established` up to its await, worker.rs:237-385. -/
def Slot.runEst (s : Slot A) (q : Nat) (we peer : Bool) : Slot A × List (Obs A) :=
  let hasOut := !s.mail.outbound.isEmpty
  match s.mail.command with
  | .close =>
    if we then (s.runIo hasOut we peer, [])
    else
      (({ s with mail := { s.mail with command := .idle, sockSendQueue := q } } : Slot A).runIo hasOut true
        peer, [.close])
  | .abort => ({ s with pc := .aborting }, [.abort])
  | _ => (s.runIo hasOut we peer, [])

/-- `m.open = false; m.sock_send_queue = 0`, worker.rs:268-272, 297-301, 347-351, 425-429, before the worker
calls `reset_socket`. -/
def Slot.down (s : Slot A) : Slot A :=
  { s with mail := { s.mail with isOpen := false, sockSendQueue := 0 }, pc := .resetting }

/-- A step of a worker: what it does when it wakes up where it stands, worker.rs:59-454. Nothing happens,
and the step is `none`, when it is not waiting for that: a command wake that is not latched, a read of no
bytes or of more than it asked for, a write of more than it offered. -/
def Slot.wakeup (s : Slot A) (w : Wakeup A) : Option (Slot A × List (Obs A)) :=
  match s.pc, w with
  | .top, .run _ => some s.runTop
  | .idle, .woke => if s.wake then some ({ s with wake := false, pc := .top }, []) else none
  | .accepting _, .up peer q =>
    let m := { s.mail with
      acceptedPeer := peer, established := peer.isSome, isOpen := peer.isSome, command := .idle,
      sockSendQueue := q }
    if peer.isSome then some ({ s with mail := m, pc := .est false false }, [])
    else some ({ s with mail := m, pc := .resetting }, [.abort])
  | .accepting _, .err => some ({ s with pc := .resetting }, [.failed, .abort])
  | .accepting _, .woke =>
    if s.wake then some ({ s with wake := false, pc := .relisten }, [.abort]) else none
  | .relisten, .flushed _ => some ({ s with pc := .top }, [])
  | .dialing _, .up peer q =>
    some ({ s with
      mail := { s.mail with
        acceptedPeer := peer, established := true, isOpen := true, command := .idle, sockSendQueue := q }
      pc := .est false false }, [])
  | .dialing _, .err =>
    some ({ s with
      mail := { s.mail with established := false, isOpen := false, command := .idle }
      pc := .resetting }, [.failed, .abort])
  | .dialing _, .woke =>
    if s.wake then some ({ s with wake := false, pc := .resetting }, [.abort]) else none
  | .est we peer, .run q => some (s.runEst q we peer)
  | .aborting, .flushed _ => some (s.down, [.abort])
  | .finishing, .flushed _ => some (s.down, [.abort])
  | .writing chunk we peer, .wrote n q =>
    if n ≤ chunk.length then
      some ({ s with
        mail := { s.mail with outbound := s.mail.outbound.drop n, sockSendQueue := q }
        pc := .flushing we peer }, [.wrote (chunk.take n)])
    else none
  | .writing _ _ _, .err => some (s.down, [.failed, .abort])
  | .flushing we peer, .flushed q =>
    some ({ s with mail := { s.mail with sockSendQueue := q }, pc := .est we peer }, [])
  | .parked we peer, .woke =>
    if s.wake then some ({ s with wake := false, pc := .est we peer }, []) else none
  | .reading _ we _, .eof q =>
    some ({ s with mail := { s.mail with peerFin := true, sockSendQueue := q }, pc := .est we true }, [.fin])
  | .reading cap we peer, .data b q =>
    if 0 < b.length ∧ b.length ≤ cap then
      some ({ s with
        mail := { s.mail with inbound := s.mail.inbound ++ b, sockSendQueue := q }
        pc := .est we peer }, [.read b])
    else none
  | .reading _ _ _, .err => some (s.down, [.failed, .abort])
  | .reading _ we peer, .woke =>
    if s.wake then some ({ s with wake := false, pc := .est we peer }, []) else none
  | .resetting, .flushed _ => some ({ s with mail := s.mail.reset, pc := .top }, [])
  | _, _ => none

end Worker

/-- One thing that happens to a slot. -/
inductive Ev (A : Type) where
  | engine (c : Call A)
  | worker (w : Wakeup A)
deriving DecidableEq, Repr

/-- One step of a slot: `pump_loop` and the workers are siblings in one task, runner.rs:113-125, 152-160, so
a call of the engine and a step of the worker never overlap. -/
def Slot.step {A : Type} (s : Slot A) : Ev A → Option (Slot A × List (Obs A))
  | .engine c => if s.allows c then some (s.call c) else none
  | .worker w => s.wakeup w

/-- A run of a slot: every event must be possible where it occurs. -/
def Slot.runs {A : Type} (s : Slot A) : List (Ev A) → Option (Slot A × List (Obs A))
  | [] => some (s, [])
  | e :: es =>
    match s.step e with
    | none => none
    | some (s', o) => (s'.runs es).map fun r => (r.1, o ++ r.2)

end Verif.Embassy
