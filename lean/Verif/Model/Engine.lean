import Verif.Model.Coord
/-
Model of the driving core of the embedded drivers: the coordinator together with a fixed pool of stream
sockets, and one call (`pump`) that moves everything forward.
Source: /repo/memberlist-embedded/src/engine/mod.rs, reliable/mod.rs, stream_io.rs, gossip_io.rs.
Paths below are relative to /repo/memberlist-embedded/src.

The network stack is any implementation of `StreamIo` over any state `S`; between two calls it may move to
any other state (`EOp.world`). The datagrams `GossipIo::recv` yields during a pump are an argument of the
pump; what is given to `GossipIo::send` is recorded. `log` and `hist` are history variables, read by nothing.

Two loops of the code end only when the stack lets them: the read loop of a socket that always has more, and the
action loop when each refused dial makes the coordinator start another. The model follows each for at most
`EEnv.fuel` passes; if that is not enough it stops following the program for good (`cut`), so that whatever is
proved of the states it reaches is proved of a program that is still inside the loop. The theorems hold for
every fuel.

Left out: the read-only accessors; `set_alive_delegate` and `set_merge_delegate` (the delegates are those of
`Env` and stay the same); `take_free`, `give`, `free_count`, `may_recv`, `is_established` of `StreamIo`,
which the engine never calls.
-/
namespace Verif

/-- `StreamIo`, stream_io.rs:22-128: what the engine may do to a socket, on a stack in a state `S`. `listen`
keeps no result, for the engine ignores it; `connect` tells whether it succeeded; `recv` yields no bytes for
`None` and for `Some(0)`. -/
structure SocketIo (S C A : Type) where
  reuseReady : S → C → Bool
  listen : S → C → S
  acceptedPeer : S → C → Option A
  connect : S → C → A → Nat → S × Bool
  maySend : S → C → Bool
  isOpen : S → C → Bool
  recv : S → C → S × Bytes
  recvFinished : S → C → Bool
  send : S → C → Bytes → S × Nat
  sendQueue : S → C → Nat
  close : S → C → S
  abort : S → C → S

/-- What the engine is configured with and what lies outside it: the stack; the close timeout
(config/mod.rs:43-55); whether the CIDR policy blocks an address (`cidr_blocks`, cidr.rs:20-33) and whether
it is routable (`socket_addr_is_routable`, addr/mod.rs:27-29); the checksum setting; the nonce of each sealed
datagram; the iteration orders of the two hash maps; and the number of passes after which the model stops
following a loop whose end depends on the stack. -/
structure EEnv (S C A : Type) where
  io : SocketIo S C A
  closeTimeout : Nat
  blocked : A → Bool
  routable : A → Bool
  checksum : Option ChkAlgo
  nonce : Nat → Bytes
  order : Nat → List Nat → List Nat
  order_perm : ∀ t l, (order t l).Perm l
  orderC : Nat → List C → List C
  orderC_perm : ∀ t l, (orderC t l).Perm l
  fuel : Nat

/-- `ConnState`, reliable/mod.rs:130-163. -/
inductive SockState where
  | pendingDial | dialing | established | halfClosed | closing
  deriving DecidableEq, Repr

/-- `Connection<C>`, reliable/mod.rs:174-279. -/
structure Wired (A C : Type) where
  peer : A
  socket : Option C
  state : SockState
  out : List Bytes := []
  finPending : Bool := false
  eofDelivered : Bool := false
  closeDeadline : Option Nat := none
  drainMark : Nat := 0
  deriving DecidableEq, Repr

/-- `out_bytes`, reliable/mod.rs:276-278. -/
def Wired.outBytes {A C : Type} (k : Wired A C) : Nat := (k.out.map List.length).sum

/-- What the engine did with a socket, for which exchange (entries of the history variable `Engine.log`). Model
only, no counterpart in the code: a history variable. -/
inductive Act (A C : Type) where
  | listen (c : C)
  | accept (x : Nat) (c : C) (peer : A)
  | connect (x : Nat) (c : C) (peer : A) (ok : Bool)
  | read (x : Nat) (c : C) (b : Bytes)
  | eof (x : Nat) (c : C)
  | write (x : Nat) (c : C) (b : Bytes)
  | fin (x : Nat) (c : C)
  | abort (c : C)
  /-- The socket was found closed. -/
  | gone (c : C)
  | free (c : C)
  /-- Bytes handed out for an exchange without a connection are dropped. -/
  | lost (x : Nat) (b : Bytes)
  | datagram (dst : A) (b : Bytes)
  deriving DecidableEq, Repr

/-- `Engine<I, C, R>` with its `ReliablePlane<C>`, engine/mod.rs:275-321, reliable/mod.rs:292-336. `pool` has the most
recently freed handle last. `cut` records that the model no longer follows the program (see above). `log` has, with
each act, the state of the stack in which the engine decided on it. -/
structure Engine (I A C S : Type) where
  coord : Coord I A
  io : S
  pool : List C := []
  conns : Map Nat (Wired A C) := []
  listener : Option C := none
  closing : Map C Nat := []
  seeds : List A := []
  sids : Map Nat Nat := []
  lastSend : Option Nat := none
  sealed : Nat := 0
  tick : Nat := 0
  cut : Bool := false
  log : List (S × Act A C) := []
  hist : List (Coord.XOp I A × Coord.XOut I A) := []

namespace Engine
variable {I A C S : Type}

/-- `Pool::take_where`, reliable/mod.rs:76-81: the last ready handle; the others keep their order. -/
def takeReady (ready : C → Bool) : List C → Option (C × List C)
  | [] => none
  | c :: l =>
    match takeReady ready l with
    | some (d, r) => some (d, c :: r)
    | none => if ready c then some (c, l) else none

/-- A history entry. Model only, no counterpart in the code: a history variable. -/
def note (g : Engine I A C S) (a : Act A C) : Engine I A C S := { g with log := g.log ++ [(g.io, a)] }

/-- `Pool::give`, reliable/mod.rs:86-88. -/
def give (g : Engine I A C S) (c : C) : Engine I A C S := { g.note (.free c) with pool := g.pool ++ [c] }

section
variable [DecidableEq C] (E : EEnv S C A)

/-- `stream.abort(c)`. engine/mod.rs:1244, 1289, 1314, 1397, 1546, 1636. -/
def abort (g : Engine I A C S) (c : C) : Engine I A C S := { g.note (.abort c) with io := E.io.abort g.io c }

/-- `stream.close(c)`, for exchange `x`, as decided in state `io` of the stack. engine/mod.rs:1534, 1630, 1860.
-/
def close (g : Engine I A C S) (io : S) (x : Nat) (c : C) : Engine I A C S :=
  { g with io := E.io.close g.io c, log := g.log ++ [(io, .fin x c)] }

/-- One handle of `reap_closing`, engine/mod.rs:1233-1250. -/
def reapOne (now : Nat) (g : Engine I A C S) (c : C) : Engine I A C S :=
  match g.closing.get? c with
  | none => g
  | some deadline =>
    if !E.io.isOpen g.io c then ({ g with closing := g.closing.erase c }.note (.gone c)).give c
    else if now ≥ deadline then ({ g with closing := g.closing.erase c }.abort E c).give c
    else g

/-- `reap_closing`, engine/mod.rs:1228-1251. -/
def reapClosing (g : Engine I A C S) (now : Nat) : Engine I A C S :=
  (E.orderC g.tick g.closing.keys).foldl (reapOne E now) { g with tick := g.tick + 1 }

/-- `ensure_listener`, engine/mod.rs:1345-1367. -/
def ensureListener (g : Engine I A C S) : Engine I A C S :=
  match g.listener with
  | some _ => g
  | none =>
    match takeReady (E.io.reuseReady g.io) g.pool with
    | none => g
    | some (c, pool) => { g.note (.listen c) with pool := pool, io := E.io.listen g.io c, listener := some c }

/-- `abort_exchange`, engine/mod.rs:1386-1400. -/
def abortExchange (g : Engine I A C S) (x : Nat) : Engine I A C S :=
  match g.conns.get? x with
  | none => g
  | some k =>
    let g := { g with conns := g.conns.erase x }
    match k.socket with
    | none => g
    | some c => (g.abort E c).give c

/-- `teardown`, engine/mod.rs:1455-1549. -/
def teardown (g : Engine I A C S) (x now : Nat) : Engine I A C S :=
  match g.conns.get? x with
  | none => g
  | some k =>
    match k.socket with
    | none => { g with conns := g.conns.erase x }
    | some c =>
      if !E.io.isOpen g.io c then ({ g with conns := g.conns.erase x }.note (.gone c)).give c
      else if k.state = .halfClosed then
        { g with conns := g.conns.erase x, closing := g.closing.insert c (now + E.closeTimeout) }
      else if E.io.maySend g.io c ∧ (k.out ≠ [] ∨ E.io.sendQueue g.io c ≠ 0) then
        let k' := { k with
          state := .closing, closeDeadline := some (now + E.closeTimeout)
          drainMark := k.outBytes + E.io.sendQueue g.io c, finPending := false }
        { g with conns := g.conns.insert x k' }
      else if E.io.maySend g.io c then
        { g with conns := g.conns.erase x, closing := g.closing.insert c (now + E.closeTimeout) }.close E g.io x c
      else ({ g with conns := g.conns.erase x }.abort E c).give c

/-- `ClosingAction`, engine/mod.rs:1588-1596. -/
inductive Outcome (C : Type) where
  | fin (c : C)
  | abort (c : C)
  | progress (mark : Nat)

/-- What the first loop of `flush_closing` decides for a connection, engine/mod.rs:1598-1622. -/
def outcome (io : S) (now : Nat) (k : Wired A C) : Option (Outcome C) :=
  if k.state ≠ .closing then none
  else
    match k.socket with
    | none => none
    | some c =>
      let undelivered := k.outBytes + E.io.sendQueue io c
      if undelivered = 0 then some (.fin c)
      else if undelivered < k.drainMark then some (.progress undelivered)
      else if k.closeDeadline.any (fun d => now ≥ d) then some (.abort c)
      else none

/-- One step of the second loop of `flush_closing`, engine/mod.rs:1624-1648. -/
def settle (io : S) (now : Nat) (g : Engine I A C S) (a : Nat × Outcome C) : Engine I A C S :=
  match a.2 with
  | .fin c =>
    { g with conns := g.conns.erase a.1, closing := g.closing.insert c (now + E.closeTimeout) }.close E io a.1 c
  | .abort c => ({ g with conns := g.conns.erase a.1 }.abort E c).give c
  | .progress mark =>
    { g with conns := g.conns.modify a.1 (fun k =>
        { k with drainMark := mark, closeDeadline := some (now + E.closeTimeout) }) }

/-- `flush_closing`, engine/mod.rs:1580-1649. -/
def flushClosing (g : Engine I A C S) (now : Nat) : Engine I A C S :=
  ((E.order g.tick g.conns.keys).filterMap (fun x =>
      ((g.conns.get? x).bind (outcome E g.io now)).map (fun o => (x, o)))).foldl
    (settle E g.io now) { g with tick := g.tick + 1 }

/-- The inner loop of `pump_outbound_reliable`, engine/mod.rs:1740-1764: write pieces while the socket takes
them whole. The new state of the stack, what stays queued, and what was written in which state. -/
def writeOut (c : C) : S → List Bytes → S × List Bytes × List (S × Bytes)
  | io, [] => (io, [], [])
  | io, b :: rest =>
    if (E.io.send io c b).2 ≥ b.length then
      let r := writeOut c (E.io.send io c b).1 rest
      (r.1, r.2.1, (io, b) :: r.2.2)
    else ((E.io.send io c b).1, b.drop (E.io.send io c b).2 :: rest, [(io, b.take (E.io.send io c b).2)])

/-- One exchange of the second loop of `pump_outbound_reliable`, engine/mod.rs:1713-1765. -/
def writeOne (g : Engine I A C S) (x : Nat) : Engine I A C S :=
  match g.conns.get? x with
  | none => g
  | some k =>
    match k.socket with
    | none => g
    | some c =>
      if k.out = [] ∨ !E.io.maySend g.io c then g
      else
        let r := writeOut E c g.io k.out
        { g with io := r.1, conns := g.conns.insert x { k with out := r.2.1 }
                 log := g.log ++ r.2.2.map (fun w => (w.1, Act.write x c w.2)) }

/-- `promote_established`, engine/mod.rs:1779-1797. -/
def promoteEstablished (g : Engine I A C S) : Engine I A C S :=
  { g with conns := g.conns.map (fun e =>
      if e.2.state = .dialing ∧ e.2.socket.any (E.io.maySend g.io) then (e.1, { e.2 with state := .established })
      else e) }

/-- One exchange of `flush_pending_shutdowns`, engine/mod.rs:1854-1865. -/
def shutOne (io : S) (g : Engine I A C S) (x : Nat) : Engine I A C S :=
  match g.conns.get? x with
  | none => g
  | some k =>
    match k.socket with
    | none => g
    | some c => { g with conns := g.conns.insert x { k with finPending := false, state := .halfClosed } }.close E io x c

/-- Whether a deferred FIN may go out, engine/mod.rs:1839-1852. -/
def finReady (io : S) (k : Wired A C) : Bool :=
  k.finPending && k.state = .established && k.out.isEmpty &&
    k.socket.any (fun c => E.io.maySend io c && E.io.sendQueue io c = 0)

/-- `flush_pending_shutdowns`, engine/mod.rs:1832-1866. -/
def flushShutdowns (g : Engine I A C S) : Engine I A C S :=
  ((E.order g.tick g.conns.keys).filter (fun x => (g.conns.get? x).any (finReady E g.io))).foldl
    (shutOne E g.io) { g with tick := g.tick + 1 }
end

section
variable [DecidableEq I] [DecidableEq A] [DecidableEq C]
variable (cfg : Cfg I A) (env : Env I A) (X : XCfg) (T : TEnv) (E : EEnv S C A)

/-- A call to the coordinator. Model only, no counterpart in the code: the coordinator is used through its own
`step`. -/
def call (g : Engine I A C S) (op : Coord.XOp I A) : Engine I A C S × Coord.XOut I A :=
  ({ g with coord := (g.coord.step cfg env X T op).1, hist := g.hist ++ [(op, (g.coord.step cfg env X T op).2)] },
    (g.coord.step cfg env X T op).2)

/-- `check_listener`, engine/mod.rs:1268-1331. -/
def checkListener (g : Engine I A C S) (now : Nat) : Engine I A C S :=
  match g.listener with
  | none => g
  | some c =>
    match E.io.acceptedPeer g.io c with
    | none => g
    | some peer =>
      if E.blocked peer then { (g.abort E c).give c with listener := none }.ensureListener E
      else
        match g.call cfg env X T (.accept peer now) with
        | (g, .accepted (some x)) =>
          ({ g with conns := g.conns.insert x { peer, socket := some c, state := .established }
                    listener := none }.note (.accept x c peer)).ensureListener E
        | (g, _) => { (g.abort E c).give c with listener := none }.ensureListener E

/-- The three failure branches of `dial`, engine/mod.rs:2271-2308. -/
def dialFail (g : Engine I A C S) (x : Nat) (c : C) (now : Nat) : Engine I A C S :=
  let g := (g.abort E c).give c
  ({ g with conns := g.conns.erase x }.call cfg env X T (.dialFailed x now)).1

/-- `dial`, engine/mod.rs:2260-2309; the ephemeral port is `49152 + eid as u16 % 16384`. -/
def dial (g : Engine I A C S) (x : Nat) (peer : A) (c : C) (now : Nat) : Engine I A C S :=
  if E.blocked peer then g.dialFail cfg env X T E x c now
  else if !E.routable peer then g.dialFail cfg env X T E x c now
  else
    let r := E.io.connect g.io c peer (49152 + x % 2 ^ 16 % 16384)
    let g := { g.note (.connect x c peer r.2) with io := r.1 }
    if r.2 then g else g.dialFail cfg env X T E x c now

/-- The loop of `drain_pending_dials`, engine/mod.rs:2346-2363. -/
def assign (now : Nat) : List (Nat × A) → Engine I A C S → Engine I A C S
  | [], g => g
  | (x, peer) :: rest, g =>
    match takeReady (E.io.reuseReady g.io) g.pool with
    | none => g
    | some (c, pool) =>
      assign now rest
        ({ g with pool := pool, conns := g.conns.modify x (fun k =>
            { k with socket := some c, state := .dialing }) }.dial cfg env X T E x peer c now)

/-- The exchanges that wait for a socket, oldest first, engine/mod.rs:2334-2344. -/
def waiting (g : Engine I A C S) : List (Nat × A) :=
  (((g.conns.filter (fun e => e.2.state = .pendingDial)).map Prod.fst).foldl (fun l x => idInsert x l) []).filterMap
    (fun x => (g.conns.get? x).map (fun k => (x, k.peer)))

/-- `rebalance_pool`, engine/mod.rs:2379-2385, with `drain_pending_dials`, engine/mod.rs:2328-2364. -/
def rebalance (g : Engine I A C S) (now : Nat) : Engine I A C S :=
  let g := g.ensureListener E
  assign cfg env X T E now g.waiting g

/-- `drain_stream_actions`, engine/mod.rs:2419-2507. -/
def drainActions (now : Nat) : Nat → Engine I A C S → Engine I A C S
  | 0, g => { g with cut := true }
  | fuel + 1, g =>
    match g.call cfg env X T .pollAction with
    | (g, .action (some (.connect x peer sid))) =>
      let g := { g with sids := g.sids.insert x sid }
      match takeReady (E.io.reuseReady g.io) g.pool with
      | some (c, pool) =>
        drainActions now fuel
          ({ g with pool := pool, conns := g.conns.insert x { peer, socket := some c, state := .dialing } }.dial
            cfg env X T E x peer c now)
      | none =>
        drainActions now fuel
          { g with conns := g.conns.insert x { peer, socket := none, state := .pendingDial } }
    | (g, .action (some (.down .shutdown x))) =>
      drainActions now fuel { g with conns := g.conns.modify x (fun k => { k with finPending := true }) }
    | (g, .action (some (.down .close x))) => drainActions now fuel (g.teardown E x now)
    | (g, .action (some (.down .abort x))) => drainActions now fuel (g.abortExchange E x)
    | (g, _) => g

/-- The read loop of one exchange, engine/mod.rs:2563-2584. -/
def readAll (now x : Nat) (c : C) : Nat → Engine I A C S → Engine I A C S
  | 0, g => { g with cut := true }
  | fuel + 1, g =>
    let b := (E.io.recv g.io c).2
    if b ≠ [] then
      readAll now x c fuel
        ({ g.note (.read x c b) with io := (E.io.recv g.io c).1 }.call cfg env X T (.data x b false now)).1
    else
    let g := { g with io := (E.io.recv g.io c).1 }
    if !E.io.recvFinished g.io c then g
    else
      match g.conns.get? x with
      | none => g
      | some k =>
        if k.eofDelivered then g
        else
          (({ g with conns := g.conns.insert x { k with eofDelivered := true } }.note (.eof x c)).call
            cfg env X T (.data x [] true now)).1

/-- `pump_inbound_reliable`, engine/mod.rs:2532-2586. The sockets are looked up before the first read; no read
changes them. -/
def pumpIn (g : Engine I A C S) (now : Nat) : Engine I A C S :=
  ((E.order g.tick g.conns.keys).filterMap (fun x =>
      ((g.conns.get? x).bind Wired.socket).map (fun c => (x, c)))).foldl
    (fun g e => if g.cut then g else readAll cfg env X T E now e.1 e.2 E.fuel g) { g with tick := g.tick + 1 }

/-- The first loop of `pump_outbound_reliable`, engine/mod.rs:1698-1707. The fuel is the number of queued pieces. -/
def fetchOut : Nat → Engine I A C S → Engine I A C S
  | 0, g => g
  | fuel + 1, g =>
    match g.call cfg env X T .pollTransport with
    | (g, .bytes (some (x, _, b))) =>
      match g.conns.get? x with
      | none => fetchOut fuel (g.note (.lost x b))
      | some k => fetchOut fuel { g with conns := g.conns.insert x { k with out := k.out ++ [b] } }
    | (g, _) => g

/-- `pump_outbound_reliable`, engine/mod.rs:1693-1766. -/
def pumpOut (g : Engine I A C S) : Engine I A C S :=
  let g := fetchOut cfg env X T (g.coord.out.length + 1) g
  (E.order g.tick g.conns.keys).foldl (writeOne E) { g with tick := g.tick + 1 }

/-- The messages of a received datagram, engine/mod.rs:2064-2087: `decrypt_gossip`, `decode_incoming`,
`parse_messages`; none if any of them fails. -/
def received (ring : Option Keyring) (raw : Bytes) : List (Message I A) :=
  match unwrapWithEncryption T.B ring raw cfg.gossipMtu with
  | .error _ => []
  | .ok plain =>
    match receiveDatagram env.CI env.CA X.label plain with
    | .error _ => []
    | .ok msgs => msgs

/-- The ingress loop, engine/mod.rs:2053-2088. The fuel is the number of queued datagrams. -/
def ingest (now : Nat) : Nat → Engine I A C S → Engine I A C S
  | 0, g => g
  | fuel + 1, g =>
    match g.call cfg env X T .pollIngress with
    | (g, .datagram (some (src, raw))) =>
      ingest now fuel ((received cfg env X T g.coord.ring raw).foldl (fun g m =>
        (g.call cfg env X T (.direct (.packet src m now))).1) g)
    | (g, _) => g

/-- The bytes of a transmit, `encode_transmit`, engine/mod.rs:2605-2624. -/
def encodeTransmit : Transmit I A → Option (A × Bytes)
  | .packet dst m =>
    match encodeOutgoing env.CI env.CA X.label m with
    | .ok b => some (dst, b)
    | .error _ => none
  | .compound dst ms =>
    match encodeOutgoingCompound env.CI env.CA X.label ms with
    | .ok b => some (dst, b)
    | .error _ => none

/-- One transmit of `drain_gossip_transmits`, engine/mod.rs:927-985. -/
def sendDatagram (g : Engine I A C S) (t : Transmit I A) : Engine I A C S :=
  match encodeTransmit env X t with
  | none => g
  | some (dst, b) =>
    match sendGossip T.B ⟨g.coord.cmp, E.checksum, g.coord.ring⟩ (E.nonce g.sealed) b with
    | .error _ => g
    | .ok wire =>
      let g := { g with sealed := g.sealed + 1 }
      if !E.routable dst then g else if E.blocked dst then g else g.note (.datagram dst wire)

/-- `drain_gossip_transmits`, engine/mod.rs:922-986. The fuel is the number of queued transmits. -/
def drainTransmits : Nat → Engine I A C S → Engine I A C S
  | 0, g => g
  | fuel + 1, g =>
    match g.call cfg env X T (.direct .pollTransmit) with
    | (g, .endpoint (.transmit (some t))) => drainTransmits fuel (g.sendDatagram env X T E t)
    | (g, _) => g

/-- The seeds loop, engine/mod.rs:2104-2111. -/
def dialSeeds (g : Engine I A C S) (now : Nat) : Engine I A C S :=
  if !g.coord.ep.isRunning then g
  else
    g.seeds.foldl (fun g seed => (g.call cfg env X T (.startPushPull seed .join now)).1) { g with seeds := [] }

/-- `pump`, engine/mod.rs:1985-2245. -/
def pump (g : Engine I A C S) (now : Nat) (datagrams : List (A × Bytes)) : Engine I A C S :=
  let g := g.reapClosing E now
  let g := g.checkListener cfg env X T E now
  let g := g.rebalance cfg env X T E now
  let g := datagrams.foldl (fun g d =>
    if E.blocked d.1 then g else (g.call cfg env X T (.gossip d.1 d.2 now)).1) g
  let g := ingest cfg env X T now (g.coord.ingress.length + 1) g
  let g := g.pumpIn cfg env X T E now
  if g.cut then g else
  let g := g.dialSeeds cfg env X T now
  let g := (g.call cfg env X T (.timeout now)).1
  let g := drainActions cfg env X T E now E.fuel g
  if g.cut then g else
  let g := g.promoteEstablished E
  let g := g.pumpOut cfg env X T E
  let g := g.flushShutdowns E
  let g := g.flushClosing E now
  let g := g.rebalance cfg env X T E now
  drainTransmits cfg env X T E (g.coord.ep.net.transmits.length + 1) g

/-- The instant `pump` returns, engine/mod.rs:2227-2244. -/
def wake (g : Engine I A C S) : Option Nat :=
  let best := g.closing.foldl (fun acc e => Ep.minOpt acc (some e.2)) g.coord.pollTimeout
  g.conns.foldl (fun acc e => Ep.minOpt acc e.2.closeDeadline) best

/-- `probe_encryption_keyring`, engine/mod.rs:210-219: every key can seal. -/
def probeKeys (B : Backends) (ring : Option Keyring) : Bool :=
  match ring with
  | none => true
  | some r => (r.primary :: r.secondaries).all (fun k =>
      match encEncrypt B k.algorithm k (List.replicate 12 0) [] [] with
      | .ok _ => true
      | .error _ => false)

/-- `try_new_at`, engine/mod.rs:1060-1181, after its checks, with the handles and the listener the driver installs
(engine/mod.rs:339-348): an endpoint `ep` just made, the transform settings, and a stack in state `io`. -/
def new (ep : Ep I A) (cmp0 cmp : CmpOptions) (ring : Option Keyring) (io : S) (handles : List C)
    (listener : Option C) : Engine I A C S :=
  let g : Engine I A C S := { coord := Coord.new ep cmp0, io, pool := handles, listener }
  ((g.call cfg env X T (.setCompression cmp)).1.call cfg env X T (.setEncryption ring)).1

/-- Every call of the engine's interface that changes it, and the moves of the stack. Model only, no counterpart
in the code: it gathers the public methods of the engine and the changes of the TCP stack. -/
inductive EOp (I A C S : Type) where
  | world (io : S)
  | pump (now : Nat) (datagrams : List (A × Bytes))
  | join (seeds : List A)
  | leave (now : Nat)
  | sendReliable (dst : A) (payload : Bytes) (now : Nat)
  | send (dst : A) (payload : Bytes)
  | sendMany (dst : A) (payloads : List Bytes)
  | ping (node : TNode I A) (now : Nat)
  | start (now : Nat)
  | injectAlive (id : I) (peer : A) (now : Nat)
  | queueUser (rank : Nat) (data : Bytes)
  | updateMeta (metadata : Bytes)
  | setLocalState (bytes : Bytes)
  | setAckPayload (payload : Bytes)
  | setCompression (cmp : CmpOptions)
  | setEncryption (ring : Option Keyring)
  | pollEvent

/-- What a call returns. Model only, no counterpart in the code: it gathers the results of the public methods.
-/
inductive EOut (I A : Type) where
  | unit
  | refused
  | wake (t : Option Nat)
  | event (ev : Option (Event I A))
  | call (r : Coord.XOut I A)

/-- One call, engine/mod.rs:413-424, 638-859, 1881-1938, with `Alive::new`, typed/alive.rs:21-29. `send_reliable`
returns the stream id. -/
def act (g : Engine I A C S) : EOp I A C S → Engine I A C S × EOut I A
  | .world io => ({ g with io := io }, .unit)
  | .pump now datagrams =>
    (g.pump cfg env X T E now datagrams, .wake (g.pump cfg env X T E now datagrams).wake)
  | .join seeds =>
    if !g.coord.ep.isRunning then (g, .refused)
    else ({ g with seeds := g.seeds ++ seeds.filter E.routable }, .unit)
  | .leave now => (({ g with seeds := [] }.call cfg env X T (.leave now none)).1, .unit)
  | .sendReliable dst payload now =>
    ((g.call cfg env X T (.startUserMessage dst payload now)).1,
      .call (g.call cfg env X T (.startUserMessage dst payload now)).2)
  | .send dst payload =>
    if E.blocked dst then (g, .unit)
    else ((g.call cfg env X T (.direct (.sendUserPacket dst payload))).1,
      .call (g.call cfg env X T (.direct (.sendUserPacket dst payload))).2)
  | .sendMany dst payloads =>
    if E.blocked dst then (g, .unit)
    else ((g.call cfg env X T (.direct (.sendUserPackets dst payloads))).1,
      .call (g.call cfg env X T (.direct (.sendUserPackets dst payloads))).2)
  | .ping node now =>
    ((g.call cfg env X T (.direct (.ping node now))).1, .call (g.call cfg env X T (.direct (.ping node now))).2)
  | .start now => ((g.call cfg env X T (.direct (.startScheduling now))).1, .unit)
  | .injectAlive id peer now =>
    if !E.routable peer then (g, .unit)
    else ((g.call cfg env X T (.direct (.packet peer (.alive ⟨1, [], ⟨id, peer⟩, .v1, .v1⟩) now))).1, .unit)
  | .queueUser rank data =>
    ((g.call cfg env X T (.direct (.queueUser rank data))).1, .call (g.call cfg env X T (.direct (.queueUser rank data))).2)
  | .updateMeta m =>
    ((g.call cfg env X T (.direct (.updateMeta m))).1, .call (g.call cfg env X T (.direct (.updateMeta m))).2)
  | .setLocalState b =>
    ((g.call cfg env X T (.direct (.setLocalState b))).1, .call (g.call cfg env X T (.direct (.setLocalState b))).2)
  | .setAckPayload b =>
    ((g.call cfg env X T (.direct (.setAckPayload b))).1, .call (g.call cfg env X T (.direct (.setAckPayload b))).2)
  | .setCompression cmp =>
    if !g.coord.ep.isRunning then (g, .refused) else ((g.call cfg env X T (.setCompression cmp)).1, .unit)
  | .setEncryption ring =>
    if !g.coord.ep.isRunning then (g, .refused)
    else if !probeKeys T.B ring then (g, .refused)
    else ((g.call cfg env X T (.setEncryption ring)).1, .unit)
  | .pollEvent =>
    match g.call cfg env X T .pollEvent with
    | (g, .event (some (.external (some r)))) =>
      ({ g with sids := g.sids.erase r.exchange, lastSend := g.sids.get? r.exchange },
        .event (some (.external (some r))))
    | (g, .event ev) => ({ g with lastSend := none }, .event ev)
    | (g, _) => ({ g with lastSend := none }, .event none)

/-- One call, unless the model no longer follows the program. Model only, no counterpart in the code: it
dispatches to the modelled methods. -/
def step (g : Engine I A C S) (op : EOp I A C S) : Engine I A C S × EOut I A :=
  if g.cut then (g, .unit) else g.act cfg env X T E op

/-- The state after a history. Model only, no counterpart in the code: a history of calls. -/
def run (g : Engine I A C S) (ops : List (EOp I A C S)) : Engine I A C S :=
  ops.foldl (fun g op => (g.step cfg env X T E op).1) g
end

end Engine
end Verif
