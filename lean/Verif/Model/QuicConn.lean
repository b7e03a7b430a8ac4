import Verif.Model.Map
import Verif.Model.Varint
import Verif.Model.Deadline
/-
Model of what the QUIC node uses of `quinn_proto`, and of its table of pooled connections.
Source: /repo/memberlist-proto/src/quic/conn/mod.rs, quic/demux/mod.rs, quic/deadline/mod.rs,
quic/mod.rs (`route_datagram_event`)

`quinn_proto` is not modelled: its endpoint and its connections are opaque states, and every call on them
is an arbitrary function (`Quinn`). What the node is promised about them is stated apart, in `Quinn.Sound`,
and is assumed only where a theorem says so.
-/
namespace Verif

/-- `Class`, quic/demux/mod.rs:11-19. -/
inductive DgramClass where
  | quic | memberlist | reject
  deriving DecidableEq, Repr

/-- `classify`, quic/demux/mod.rs:22-29. -/
def classifyDgram : Bytes → DgramClass
  | [] => .reject
  | b :: _ => if b &&& 0xC0 ≠ 0 then .quic else if 1 ≤ b ∧ b ≤ 15 then .memberlist else .reject

/-- What `quinn_proto::Endpoint::handle` makes of a datagram (`DatagramEvent`): an event for a connection, a new
connection, or an answer to send at once. `V` are connection events, `N` incoming connections. Matched at
quic/mod.rs:2429-2559. -/
inductive DgramEv (A V N : Type) where
  | event (ch : Nat) (ev : V)
  | incoming (n : N)
  | response (dst : A) (bytes : Bytes)

/-- What `quinn_proto::Connection::poll` reports (`Event`, `StreamEvent`); `other` are the events the node
ignores. Matched at quic/mod.rs:5514. -/
inductive ConnEv where
  | lost | opened | readable (sid : Nat) | writable (sid : Nat) | finished (sid : Nat)
  | stopped (sid : Nat) | available | other
  deriving DecidableEq, Repr

/-- How the reading of a stream starts: `RecvStream::read(true)`. Matched in `pump_in`, quic/bridge/mod.rs:1153.
-/
inductive ReadStart where
  | ok | closedStream | illegalOrderedRead
  deriving DecidableEq, Repr

/-- One step of the reading of a stream: `Chunks::next(usize::MAX)`. Matched at quic/bridge/mod.rs:1179. -/
inductive ReadNext where
  | chunk (bytes : Bytes) | fin | blocked | reset
  deriving DecidableEq, Repr

/-- `SendStream::write_chunks`: the number of bytes taken, or an error. Matched at quic/bridge/mod.rs:925. -/
inductive WriteRes where
  | wrote (n : Nat) | blocked | failed
  deriving DecidableEq, Repr

/-- `Datagrams::send`. Matched at quic/mod.rs:3031. -/
inductive DgramSend where
  | ok | blocked | failed
  deriving DecidableEq, Repr

/-- `quinn_proto` as the node sees it: `E` is the state of its endpoint, `C` of a connection, `V` its
connection events, `W` its endpoint events, `N` an incoming connection. `fuel` bounds how often the node
asks in one loop (`poll`, `poll_transmit`, ..); every theorem holds whatever it is. `vacant` is the slot
the next connection gets: the handle `quinn` gives is the vacant key of a slab that has the same entries
as the node's own (`debug_assert_eq!`, quic/conn/mod.rs:354, and `assert_eq!`, 408). -/
structure Quinn (A : Type) where
  E : Type
  C : Type
  V : Type
  W : Type
  N : Type
  fuel : Nat
  vacant : List Nat → Nat
  vacant_fresh : ∀ l, vacant l ∉ l
  closed : C → Bool
  handshaking : C → Bool
  drained : C → Bool
  /-- `Endpoint::connect`; the configuration and the server name depend on the peer only. -/
  connect : E → Nat → A → E × Option C
  /-- `Endpoint::handle`. -/
  handle : E → Nat → A → Bytes → E × Option (DgramEv A V N)
  /-- `Endpoint::accept`; an error may carry an answer to send. -/
  accept : E → N → Nat → E × Except (Option (A × Bytes)) C
  /-- `Endpoint::ignore`. -/
  ignore : E → N → E
  /-- `Endpoint::handle_event`. -/
  endpointEvent : E → Nat → W → E × Option V
  /-- `Endpoint::handle_event(ch, EndpointEvent::drained())`. -/
  forget : E → Nat → E
  /-- `Connection::handle_event`. -/
  event : C → V → C
  /-- `Connection::handle_timeout`. -/
  timeout : C → Nat → C
  /-- `Connection::poll`. -/
  poll : C → C × Option ConnEv
  /-- `Connection::poll_endpoint_events`; `some none` is an event with `is_drained()`. -/
  pollEndpoint : C → C × Option (Option W)
  /-- `Datagrams::recv`. -/
  recvDgram : C → C × Option Bytes
  /-- `Datagrams::max_size`. -/
  dgramMax : C → Option Nat
  /-- `Datagrams::send`. -/
  sendDgram : C → Bytes → C × DgramSend
  /-- `Connection::poll_transmit`. -/
  transmit : C → Nat → C × Option (A × Bytes)
  /-- `Connection::poll_timeout`. -/
  pollTimeout : C → Option Nat
  /-- `Streams::open(Dir::Bi)`, `Streams::open(Dir::Uni)`, `Streams::accept(Dir::Bi)`. -/
  openBi : C → C × Option Nat
  openUni : C → C × Bool
  acceptBi : C → C × Option Nat
  /-- `Connection::close`. -/
  close : C → Nat → C
  /-- `SendStream::reset` and then `RecvStream::stop`, which the node always calls in a row. -/
  abandon : C → Nat → C
  readStart : C → Nat → C × ReadStart
  readNext : C → Nat → C × ReadNext
  /-- `Chunks::finalize`. -/
  readEnd : C → Nat → C
  write : C → Nat → Bytes → C × WriteRes
  /-- `SendStream::finish`. -/
  finish : C → Nat → C

/-- What `quinn_proto` promises. Only an event from the network or the passing of time makes a connection
drained (`State::Drained` is entered in `handle_event` and `handle_timeout` alone), a drained connection is
closed, and a closed connection opens no stream. The contract of the external crate, not code of the repository.
-/
structure Quinn.Sound {A : Type} (Q : Quinn A) : Prop where
  drained_closed : ∀ c, Q.drained c = true → Q.closed c = true
  open_closed : ∀ c, Q.closed c = true → (Q.openBi c).2 = none
  poll : ∀ c, Q.drained (Q.poll c).1 = Q.drained c
  pollEndpoint : ∀ c, Q.drained (Q.pollEndpoint c).1 = Q.drained c
  recvDgram : ∀ c, Q.drained (Q.recvDgram c).1 = Q.drained c
  sendDgram : ∀ c b, Q.drained (Q.sendDgram c b).1 = Q.drained c
  transmit : ∀ c now, Q.drained (Q.transmit c now).1 = Q.drained c
  openBi : ∀ c, Q.drained (Q.openBi c).1 = Q.drained c
  openUni : ∀ c, Q.drained (Q.openUni c).1 = Q.drained c
  acceptBi : ∀ c, Q.drained (Q.acceptBi c).1 = Q.drained c
  close : ∀ c now, Q.drained (Q.close c now) = Q.drained c
  abandon : ∀ c sid, Q.drained (Q.abandon c sid) = Q.drained c
  readStart : ∀ c sid, Q.drained (Q.readStart c sid).1 = Q.drained c
  readNext : ∀ c sid, Q.drained (Q.readNext c sid).1 = Q.drained c
  readEnd : ∀ c sid, Q.drained (Q.readEnd c sid) = Q.drained c
  write : ∀ c sid b, Q.drained (Q.write c sid b).1 = Q.drained c
  finish : ∀ c sid, Q.drained (Q.finish c sid) = Q.drained c

/-- `ConnEntry`, quic/conn/mod.rs:42-83; `ConnDirection` as a flag. -/
structure QConn (C V A : Type) where
  conn : C
  peer : A
  inbound : Bool
  established : Bool := false
  pendingIndexed : Bool
  pendingEvents : List V := []
  outbound : Nat := 0

/-- `ConnTable`, quic/conn/mod.rs:214-223. The slab is a map from slots. -/
structure ConnTable (C V A : Type) where
  conns : Map Nat (QConn C V A) := []
  peers : Map A Nat := []
  pending : Map A Nat := []

/-- `DialError`, quic/conn/mod.rs:25-33. -/
inductive QDialErr where
  | connect | atGlobalCap
  deriving DecidableEq, Repr

variable {A : Type} [DecidableEq A] (Q : Quinn A)

/-- The flag part of `conn_mut`, quic/conn/mod.rs:96-101. -/
def QConn.touch (e : QConn Q.C Q.V A) : QConn Q.C Q.V A :=
  if !e.established && !Q.handshaking e.conn && !Q.closed e.conn then { e with established := true } else e

/-- `conn_mut` followed by a call on the connection. quic/conn/mod.rs:96. -/
def QConn.via {R : Type} (e : QConn Q.C Q.V A) (f : Q.C → Q.C × R) : QConn Q.C Q.V A × R :=
  ({ e.touch Q with conn := (f (e.touch Q).conn).1 }, (f (e.touch Q).conn).2)

namespace ConnTable

/-- `get_mut(ch)` and then calls on the entry; nothing when there is no entry. quic/conn/mod.rs:235. -/
def on {R : Type} (t : ConnTable Q.C Q.V A) (ch : Nat)
    (f : QConn Q.C Q.V A → QConn Q.C Q.V A × R) : ConnTable Q.C Q.V A × Option R :=
  match t.conns.get? ch with
  | none => (t, none)
  | some e => ({ t with conns := t.conns.insert ch (f e).1 }, some (f e).2)

/-- `get_or_dial`, quic/conn/mod.rs:291-364. -/
def getOrDial (t : ConnTable Q.C Q.V A) (q : Q.E) (now : Nat) (peer : A) (max : Option Nat) :
    ConnTable Q.C Q.V A × Q.E × Except QDialErr Nat :=
  let dial := fun (t : ConnTable Q.C Q.V A) =>
    if max.any (fun m => m ≤ t.conns.length) then (t, q, .error .atGlobalCap)
    else
      match Q.connect q now peer with
      | (q, none) => (t, q, .error .connect)
      | (q, some c) =>
        let ch := Q.vacant t.conns.keys
        ({ t with conns := t.conns.insert ch { conn := c, peer, inbound := false, pendingIndexed := false }
                  peers := t.peers.insert peer ch }, q, .ok ch)
  match t.peers.get? peer with
  | none => dial t
  | some ch =>
    match t.conns.get? ch with
    | none => (t, q, .ok ch)
    | some e =>
      if !Q.closed e.conn || !e.established then (t, q, .ok ch)
      else dial { t with peers := t.peers.erase peer }

/-- The count of a key in a map of counts that stores no zero (`map.get(k).copied().unwrap_or(0)`).
quic/conn/mod.rs:415. -/
def count (m : Map A Nat) (p : A) : Nat :=
  match m.get? p with
  | some n => n
  | none => 0

/-- Whether new streams to the peer would ride a connection that is not closed, quic/conn/mod.rs:422-427. -/
def usable (t : ConnTable Q.C Q.V A) (peer : A) : Bool :=
  match (t.peers.get? peer).bind t.conns.get? with
  | some e => !Q.closed e.conn
  | none => false

/-- `insert_accepted`, quic/conn/mod.rs:389-432. -/
def insertAccepted (t : ConnTable Q.C Q.V A) (c : Q.C) (peer : A) : ConnTable Q.C Q.V A × Nat :=
  let ch := Q.vacant t.conns.keys
  let t := { t with conns := t.conns.insert ch { conn := c, peer, inbound := true, pendingIndexed := true }
                    pending := t.pending.insert peer (count t.pending peer + 1) }
  (if t.usable Q peer then t else { t with peers := t.peers.insert peer ch }, ch)

/-- `release_pending_inbound`, quic/conn/mod.rs:482-496. -/
def release (m : Map A Nat) (peer : A) : Map A Nat :=
  match m.get? peer with
  | none => m
  | some n => if n - 1 = 0 then m.erase peer else m.insert peer (n - 1)

/-- `reap_if_drained`, quic/conn/mod.rs:445-472. -/
def reapIfDrained (t : ConnTable Q.C Q.V A) (q : Q.E) (ch : Nat) : ConnTable Q.C Q.V A × Q.E × Bool :=
  match t.conns.get? ch with
  | none => (t, q, false)
  | some e =>
    if !Q.drained e.conn then (t, q, false)
    else
      ({ conns := t.conns.erase ch
         pending := if e.pendingIndexed then release t.pending e.peer else t.pending
         peers := if t.peers.get? e.peer = some ch then t.peers.erase e.peer else t.peers },
       Q.forget q ch, true)

/-- `reconcile_pending_inbound`, quic/conn/mod.rs:509-536. -/
def reconcile (t : ConnTable Q.C Q.V A) (ch : Nat) : ConnTable Q.C Q.V A :=
  match t.conns.get? ch with
  | none => t
  | some e =>
    if !e.pendingIndexed then t
    else
      let e := e.touch Q
      if !e.established then { t with conns := t.conns.insert ch e }
      else { t with conns := t.conns.insert ch { e with pendingIndexed := false }
                    pending := release t.pending e.peer }

/-- `pending_inbound_from`, quic/conn/mod.rs:566-568. -/
def pendingFrom (t : ConnTable Q.C Q.V A) (src : A) : Nat := count t.pending src

end ConnTable

/-- `earliest_excluding_2`, quic/deadline/mod.rs:157-162: the first entry in order whose key is neither of
the two. `set` and `earliest` of this file (108-145) are those of `endpoint/deadline/mod.rs`. -/
def DeadlineIndex.earliestExcluding2 {K : Type} [DecidableEq K] (s : DeadlineIndex K) (a b : K) : Option Nat :=
  (DeadlineIndex.firstKey (s.byDeadline.filter (fun e => decide (e.2 ≠ a ∧ e.2 ≠ b)))).map Prod.fst

/-- The two caps of the configuration: `max_quic_connections` and `max_pending_connections_per_source`,
quic/crypto/mod.rs. quic/crypto/mod.rs:645 and 654. -/
structure QCaps where
  maxConns : Option Nat
  maxPending : Option Nat

/-- The part of the QUIC node that owns connections: `conns`, `quinn` and the queue `out` of datagrams to send
(fields of `QuicEndpoint`, quic/mod.rs). quic/mod.rs:596-893. -/
structure Pool (Q : Quinn A) where
  table : ConnTable Q.C Q.V A := {}
  quinn : Q.E
  out : List (A × Bytes) := []

namespace Pool

/-- `reject_incoming`, quic/mod.rs (called at 2476-2497): the datagram is dropped without an answer. -/
def reject (p : Pool Q) (n : Q.N) : Pool Q := { p with quinn := Q.ignore p.quinn n }

/-- `route_datagram_event`, quic/mod.rs:2429-2551; `index_conn` is left to the node's model. The answer is
the connection to service. -/
def route (caps : QCaps) (p : Pool Q) (now : Nat) (src : A) (ev : DgramEv A Q.V Q.N) : Pool Q × Option Nat :=
  match ev with
  | .event ch v =>
    let r := p.table.on Q ch (fun e => e.via Q (fun c => (Q.event c v, ())))
    ({ p with table := r.1 }, r.2.map (fun _ => ch))
  | .incoming n =>
    if caps.maxConns.any (fun m => m ≤ p.table.conns.length) then (p.reject Q n, none)
    else if caps.maxPending.any (fun m => m ≤ p.table.pendingFrom Q src) then (p.reject Q n, none)
    else
      match Q.accept p.quinn n now with
      | (q, .ok c) =>
        let r := p.table.insertAccepted Q c src
        ({ p with table := r.1, quinn := q }, some r.2)
      | (q, .error none) => ({ p with quinn := q }, none)
      | (q, .error (some r)) => ({ p with quinn := q, out := p.out ++ [r] }, none)
  | .response dst bytes => ({ p with out := p.out ++ [(dst, bytes)] }, none)

/-- `Endpoint::handle` and then `route_datagram_event`, quic/mod.rs (`handle_udp`). quic/mod.rs:4317-4347. -/
def datagram (caps : QCaps) (p : Pool Q) (now : Nat) (src : A) (bytes : Bytes) : Pool Q × Option Nat :=
  match Q.handle p.quinn now src bytes with
  | (q, none) => ({ p with quinn := q }, none)
  | (q, some ev) => route Q caps { p with quinn := q } now src ev

/-- `get_or_dial` under the configured cap. quic/mod.rs:2988 and 3744. -/
def dial (caps : QCaps) (p : Pool Q) (now : Nat) (peer : A) : Pool Q × Except QDialErr Nat :=
  let r := p.table.getOrDial Q p.quinn now peer caps.maxConns
  ({ p with table := r.1, quinn := r.2.1 }, r.2.2)

end Pool
end Verif
