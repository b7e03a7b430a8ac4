import Verif.Model.QuicBridge
import Verif.Model.Coord
/-
Model of the QUIC node: the endpoint, the pooled connections, the exchanges that run over their streams, the
queues of dials that wait, and the timers.
Source: /repo/memberlist-proto/src/quic/mod.rs

`quinn_proto` is the arbitrary `Quinn` of Model/QuicConn. Hash tables and the slab are maps whose iteration
order is chosen by `TEnv.order`; `dial_parked` keeps its insertion order. A budget of `usize::MAX` is `none`
and is not counted. Metrics, the gossip codec wrappers, `requeue_event`, the direct calls `handle_alive` and
`handle_suspect`, and debug assertions are left out. A bridge the code takes out of the map to work on stays
in the map of the model meanwhile; nothing it calls looks there. The instants are those of `crate::Instant`;
conversion to and from `std` is the identity.
-/
namespace Verif

/-- `TimerKey`, quic/deadline/mod.rs:40-66. -/
inductive TimerKey where
  | endpoint | conn (ch : Nat) | bridge (id : Nat) | dial (id : Nat) | immediateDue | catchup
  deriving DecidableEq, Repr

/-- `PendingDial`, quic/mod.rs:359-390. -/
structure QDial (A : Type) where
  id : Nat
  peer : A
  deadline : Nat
  wake : Nat
  attempted : Bool
  kind : ExKind
  deriving DecidableEq, Repr

/-- `DialAttempt`, quic/mod.rs:397-411. -/
inductive Attempt where
  | minted | retired | reparked
  deriving DecidableEq, Repr

/-- What `process_dial_entry` reports: its answer and what it pushed on `minted` and `touched`.
quic/mod.rs:3659. -/
structure Attempted where
  res : Attempt
  minted : List Nat := []
  touched : List Nat := []

/-- `ServicedDials`, quic/mod.rs:424-435. -/
structure Serviced where
  minted : List Nat := []
  touched : List Nat := []

/-- `ServiceMarks`, quic/mod.rs:573-585. -/
structure Marks (A : Type) where
  established : Bool := false
  credit : Option A := none

/-- `DatagramSendStatus`, quic/transport_mode/mod.rs. quic/transport_mode/mod.rs:81-92. -/
inductive DgramStatus where
  | queued | notReady | tooLarge
  deriving DecidableEq, Repr

/-- The settings of the node: the caps of the connection table and `max_inbound_streams`,
`max_pending_user_dials_per_peer`, `max_reliable_ping_exempt_pops_per_pass`, `catchup_interval`,
`dial_service_margin` (quic/crypto/mod.rs), and the label of `with_label`, quic/mod.rs:1229-1249. -/
structure QCfg where
  caps : QCaps
  maxInbound : Option Nat
  maxUserDials : Nat
  exemptPops : Nat
  catchup : Nat
  margin : Nat
  label : Option Bytes
  skipLabel : Bool

/-- `MAX_MEM_INGRESS_DATAGRAMS`, quic/mod.rs:122. -/
def Q_INGRESS : Nat := 8192
/-- `MAX_INGRESS_DATAGRAMS_PER_PEER`, quic/mod.rs:131. -/
def Q_INGRESS_PEER : Nat := 1024
/-- `MAX_BRIDGE_PUMPS_PER_PASS`, quic/mod.rs:148. -/
def Q_PUMPS : Nat := 64
/-- `MAX_DIAL_ATTEMPTS_PER_PASS`, quic/mod.rs:169. -/
def Q_DIALS : Nat := 64
/-- `MAX_READY_DIAL_VISITS_PER_PASS`, quic/mod.rs:199. -/
def Q_VISITS : Nat := 2 * Q_DIALS
/-- `C_OUT`, quic/mod.rs:250. -/
def C_OUT : Nat := 256

/-- `intent_kind`, endpoint/mod.rs:573-583, with the default its callers put in. -/
def Ep.intentKind {I A : Type} (e : Ep I A) (id : Nat) : ExKind :=
  match e.net.intents.get? id with
  | some i =>
    match i.kind with
    | .pushPull _ => .pushPull
    | .reliablePing _ => .reliablePing
    | .userMessage => .userMessage
  | none => .userMessage

/-- `Vec::swap_remove` on a valid index. Standard library, used at quic/mod.rs:2179. -/
def swapRemove {α : Type} (l : List α) (i : Nat) : List α :=
  match l.getLast? with
  | none => l
  | some x => (l.set i x).dropLast

/-- `PeerResidue::insert`, quic/mod.rs:505-522. -/
def residue {α : Type} [DecidableEq α] (l : List α) (p : α) : List α := if p ∈ l then l else l ++ [p]
/-- `PeerResidue::insert_front`, quic/mod.rs:505-522. -/
def residueFront {α : Type} [DecidableEq α] (l : List α) (p : α) : List α := if p ∈ l then l else p :: l

/-- A map of counts that stores no zero, one up (`entry(k).or_insert(0) += 1`). quic/mod.rs:338, 1821;
quic/conn/mod.rs:415. -/
def bump {A : Type} [DecidableEq A] (m : Map A Nat) (p : A) : Map A Nat := m.insert p (ConnTable.count m p + 1)

/-- `QuicEndpoint<I, R>`, quic/mod.rs:596-893. `conns`, `quinn` and `out` are in `pool`. The last group is not
in the code: `hand`, `limbo` and `doom` are the locals of `service_dials` (the entries taken and not yet
processed), of `process_dial_entry` (the entry it works on) and of `service_one_conn` (the bridges of a lost
connection not yet reaped); `hot` (the connection being serviced), `stale` (the connections used since their
timer was last read), `loose` (the bridges not queued whose timer has to be read again), `capped` (the fixpoint of
`service_slot_freed_peers` was cut off), `calls` (the calls made to the endpoint, each with the exchange it
was made for) and `gone` (the reaped bridges as they were at the end) are history variables. Only the loops that
own the three locals read them. `panicked` records that an `expect`, or an index, of the code failed. -/
structure Quic (I : Type) {A : Type} (Q : Quinn A) where
  ep : Ep I A
  pool : Pool Q
  cmp : CmpOptions
  ring : Option Keyring := none
  bridges : Map Nat (QBridge I A) := []
  byConn : Map Nat (List Nat) := []
  ready : List Nat := []
  bySid : Map (Nat × Nat) Nat := []
  inbound : Nat := 0
  kinds : Map Nat ExKind := []
  peers : Map Nat A := []
  ingress : List (A × Bytes) := []
  perPeer : Map A Nat := []
  dropped : Nat := 0
  dials : List (QDial A) := []
  parked : Map A (List (QDial A)) := []
  unattempted : Nat := 0
  backlog : Map A Nat := []
  lastNow : Option Nat := none
  index : DeadlineIndex TimerKey := .new
  eventful : List Nat := []
  catchupAt : Option Nat := none
  freed : List A := []
  readyDials : List A := []
  tick : Nat := 0
  panicked : Bool := false
  hand : List (QDial A) := []
  limbo : Option (QDial A) := none
  doom : List Nat := []
  hot : Option Nat := none
  stale : List Nat := []
  loose : List Nat := []
  capped : Bool := false
  calls : List (Option Nat × Ep.Op I A) := []
  gone : List (QBridge I A) := []

namespace Quic
variable {I A : Type} {Q : Quinn A}

/-- `with_quinn_rng_seed`, quic/mod.rs:1140-1184; `q` is a new `quinn_proto::Endpoint`. `with_compression`,
quic/mod.rs:1200-1216, is `new` followed by `setCompression`. -/
def new (ep : Ep I A) (q : Q.E) (cmp : CmpOptions) : Quic I Q := { ep, pool := { quinn := q }, cmp }

section
variable [DecidableEq A]

/-- The connections. The field `conns`, quic/mod.rs:596-893. -/
def table (s : Quic I Q) : ConnTable Q.C Q.V A := s.pool.table

/-- `deadline_index.set`. quic/mod.rs:1737, 2087-2122. -/
def setTimer (s : Quic I Q) (k : TimerKey) (d : Option Nat) : Quic I Q := { s with index := s.index.set k d }

/-- A connection is used; its timer has to be read again. quic/conn/mod.rs:96; the timer is read at
quic/mod.rs:2101. -/
def putTable (s : Quic I Q) (ch : Nat) (t : ConnTable Q.C Q.V A) : Quic I Q :=
  { s with pool := { s.pool with table := t }, stale := residue s.stale ch }

/-- `conn_mut` and a call on a connection. quic/conn/mod.rs:96 and 235. -/
def useConn (s : Quic I Q) (ch : Nat) (f : Q.C → Q.C) : Quic I Q :=
  s.putTable ch (s.table.on Q ch (fun e => e.via Q (fun c => (f c, ())))).1

/-- `enqueue_ready_bridge`, quic/mod.rs:102-113. -/
def enqueue (s : Quic I Q) (id : Nat) : Quic I Q :=
  match s.bridges.get? id with
  | none => s
  | some b =>
    if b.queued then { s with loose := s.loose.filter (· ≠ id) }
    else { s with bridges := s.bridges.insert id { b with queued := true }, ready := s.ready ++ [id],
                  loose := s.loose.filter (· ≠ id) }

/-- `push_mem_ingress_capped`, quic/mod.rs:322-340. -/
def pushIngress (s : Quic I Q) (src : A) (bytes : Bytes) : Quic I Q :=
  if ConnTable.count s.perPeer src ≥ Q_INGRESS_PEER ∨ s.ingress.length ≥ Q_INGRESS then
    { s with dropped := s.dropped + 1 }
  else { s with ingress := s.ingress ++ [(src, bytes)], perPeer := bump s.perPeer src }

/-- `poll_memberlist_ingress`, quic/mod.rs:1630-1645. The count of the source goes down by one and a zero is
removed, which is `ConnTable.release`. -/
def pollIngress (s : Quic I Q) : Quic I Q × Option (A × Bytes) :=
  match s.ingress with
  | [] => (s, none)
  | e :: rest => ({ s with ingress := rest, perPeer := ConnTable.release s.perPeer e.1 }, some e)

/-- `poll_transmit`, quic/mod.rs:1609-1611. -/
def pollTransmit (s : Quic I Q) : Quic I Q × Option (A × Bytes) :=
  match s.pool.out with
  | [] => (s, none)
  | e :: rest => ({ s with pool := { s.pool with out := rest } }, some e)

/-- `can_admit_user_dials`, quic/mod.rs:1598-1601. -/
def canAdmit (X : QCfg) (s : Quic I Q) (peer : A) (n : Nat) : Bool :=
  ConnTable.count s.backlog peer + n ≤ X.maxUserDials

/-- `note_user_dial_enqueued`, quic/mod.rs:1819-1823. -/
def noteUp (s : Quic I Q) (peer : A) (kind : ExKind) : Quic I Q :=
  if kind = .userMessage then { s with backlog := bump s.backlog peer } else s

/-- `note_user_dial_dequeued`, quic/mod.rs:1838-1851. -/
def noteDown (s : Quic I Q) (peer : A) (kind : ExKind) : Quic I Q :=
  if kind = .userMessage then { s with backlog := ConnTable.release s.backlog peer } else s

/-- `has_residue`, quic/mod.rs:2804-2808. -/
def hasResidue (s : Quic I Q) : Bool := !s.ready.isEmpty || !s.freed.isEmpty || !s.readyDials.isEmpty

/-- `index_conn`, quic/mod.rs:2095-2102, and the end of `collect_conn_transmits`, 2921-2922. `conn_mut` only
marks the entry as established. -/
def indexConn (s : Quic I Q) (ch : Nat) : Quic I Q :=
  let t := (s.table.on Q ch (fun e => (e.touch Q, ()))).1
  { s with pool := { s.pool with table := t }, stale := s.stale.filter (· ≠ ch),
           index := s.index.set (.conn ch) ((t.conns.get? ch).bind (fun e => Q.pollTimeout e.conn)) }

/-- The loop of `collect_conn_transmits`, quic/mod.rs:2908-2916. -/
def transmitLoop (Q : Quinn A) (now : Nat) : Nat → Q.C → List (A × Bytes) → Q.C × List (A × Bytes)
  | 0, c, out => (c, out)
  | fuel + 1, c, out =>
    match Q.transmit c now with
    | (c, none) => (c, out)
    | (c, some d) => transmitLoop Q now fuel c (out ++ [d])

/-- `collect_conn_transmits`, quic/mod.rs:2903-2923. -/
def collectConn (now : Nat) (s : Quic I Q) (ch : Nat) : Quic I Q :=
  match s.table.on Q ch (fun e => e.via Q (fun c => transmitLoop Q now Q.fuel c [])) with
  | (_, none) => s
  | (t, some out) =>
    { s.putTable ch t with pool := { s.pool with table := t, out := s.pool.out ++ out } }.indexConn ch

/-- `collect_transmits`, quic/mod.rs:2878-2895. -/
def collectAll (T : TEnv) (s : Quic I Q) (now : Nat) : Quic I Q :=
  (T.order s.tick s.table.conns.keys).foldl (collectConn now) { s with tick := s.tick + 1 }

/-- A connection is removed from the table once it is drained: `reap_if_drained` and what its callers do on
success, quic/mod.rs:2701-2706, 5244-5246. The flag is the answer. -/
def reapConn (s : Quic I Q) (ch : Nat) : Quic I Q × Bool :=
  match s.table.reapIfDrained Q s.pool.quinn ch with
  | (_, _, false) => (s, false)
  | (t, q, true) =>
    ({ s with pool := { s.pool with table := t, quinn := q }, index := s.index.set (.conn ch) none,
              eventful := s.eventful.filter (· ≠ ch), stale := s.stale.filter (· ≠ ch) }, true)

/-- `reconcile_catchup_anchor`, quic/mod.rs:4364-4370. -/
def reconcileCatchup (X : QCfg) (s : Quic I Q) (now : Nat) : Quic I Q :=
  if !s.hasResidue then { s with catchupAt := none }
  else if s.catchupAt = none then { s with catchupAt := some (now + X.catchup) }
  else s

/-- `advance_catchup_anchor`, quic/mod.rs:4379-4385. -/
def advanceCatchup (X : QCfg) (s : Quic I Q) (now : Nat) : Quic I Q :=
  { s with catchupAt := if !s.hasResidue then none else some (now + X.catchup) }

/-- `refresh_immediate_due`, quic/mod.rs:2076-2088. -/
def refreshImmediate (s : Quic I Q) : Quic I Q :=
  s.setTimer .immediateDue (if s.unattempted > 0 ∨ s.eventful ≠ [] then s.lastNow else none)

/-- The timers of the endpoint, of the work due at once and of the residue are read again, quic/mod.rs:2049-2064,
4427-4433. -/
def refresh (s : Quic I Q) : Quic I Q :=
  ((s.setTimer .endpoint s.ep.pollTimeout).refreshImmediate).setTimer .catchup s.catchupAt

/-- `poll_timeout`, quic/mod.rs:2041-2066. -/
def pollTimeout (s : Quic I Q) : Quic I Q × Option Nat := (s.refresh, s.refresh.index.earliest)

/-- `dial_wake`, quic/mod.rs:3571-3581. -/
def dialWake (X : QCfg) (deadline now : Nat) : Nat :=
  if now < deadline - X.margin then deadline - X.margin else Nat.min deadline (now + X.catchup)

/-- The entry made of a dial request, quic/mod.rs:1945-1958, 2849-2862. -/
def fromRequest (e : Ep I A) (d : Nat × A × Nat) : QDial A :=
  { id := d.1, peer := d.2.1, deadline := d.2.2, wake := d.2.2, attempted := false, kind := e.intentKind d.1 }

/-- A dial request is queued: quic/mod.rs:1953-1967 (`poll_event`, with its timer) and 2853-2868
(`sieve_dial_events`, without; the caller takes the entry out again at once). -/
def queueDial (s : Quic I Q) (d : QDial A) : Quic I Q :=
  { s with dials := s.dials ++ [d], unattempted := s.unattempted + 1 }.noteUp d.peer d.kind

/-- `live_bridge_count`, quic/mod.rs:1671-1673. -/
def liveBridges (s : Quic I Q) : Nat := s.bridges.length

/-- `live_connections_to`, quic/mod.rs:1655-1666. -/
def liveTo (s : Quic I Q) (peer : A) : Nat :=
  match (s.table.peers.get? peer).bind s.table.conns.get? with
  | some e => if Q.drained e.conn then 0 else 1
  | none => 0

/-- `try_open_uni_stream_to`, quic/mod.rs:1718-1739. -/
def openUni (s : Quic I Q) (peer : A) (now : Nat) : Quic I Q × Bool :=
  let s := { s with lastNow := some now }
  match s.table.peers.get? peer with
  | none => (s, false)
  | some ch =>
    match s.table.on Q ch (fun e => e.via Q (fun c =>
        (if (Q.openUni c).2 then Q.close (Q.openUni c).1 now else (Q.openUni c).1, (Q.openUni c).2))) with
    | (_, none) => (s, false)
    | (t, some opened) => ((s.putTable ch t).indexConn ch, opened)

/-- The attempt on the connection, quic/mod.rs:3017-3045. -/
def tryDatagram (Q : Quinn A) (bytes : Bytes) (c : Q.C) : Q.C × DgramStatus :=
  match Q.dgramMax c with
  | none => (c, .notReady)
  | some max =>
    if bytes.length > max then (c, .tooLarge)
    else ((Q.sendDgram c bytes).1, if (Q.sendDgram c bytes).2 = .ok then .queued else .notReady)

/-- `queue_unreliable_datagram`, quic/mod.rs:2981-3050. -/
def queueDatagram (X : QCfg) (s : Quic I Q) (peer : A) (bytes : Bytes) (now : Nat) : Quic I Q × DgramStatus :=
  match s.pool.dial Q X.caps now peer with
  | (p, .error _) => ({ s with pool := p }, .notReady)
  | (p, .ok ch) =>
    let s := { s with pool := p, stale := residue s.stale ch }
    match s.table.on Q ch (fun e => e.via Q (tryDatagram Q bytes)) with
    | (_, none) => (s.collectConn now ch, .notReady)
    | (t, some status) => ((s.putTable ch t).collectConn now ch, status)
end

section
variable [DecidableEq I] [DecidableEq A] (cfg : Cfg I A) (env : Env I A) (X : QCfg) (T : TEnv)

/-- A call to the endpoint, made for exchange `x` (`none`: for none in particular). Model only, no counterpart
in the code: the field `ep` is used through `Ep.step`. -/
def callEp (s : Quic I Q) (x : Option Nat) (op : Ep.Op I A) : Quic I Q × Ep.Out I A :=
  ({ s with ep := (s.ep.step cfg env op).1, calls := s.calls ++ [(x, op)] }, (s.ep.step cfg env op).2)

/-- `emit_event(Event::ExchangeCompleted(..))`. quic/mod.rs:2610 and 2661. -/
def report (s : Quic I Q) (id : Nat) (peer : A) (ok : Bool) (kind : ExKind) : Quic I Q :=
  (s.callEp cfg env (some id) (.external (some ⟨id, peer, ok, kind⟩))).1

/-- `emit_exchange_completed`, quic/mod.rs:2598-2616. -/
def complete (s : Quic I Q) (id : Nat) (ok : Bool) : Quic I Q :=
  match s.kinds.get? id with
  | none => s
  | some kind =>
    match s.peers.get? id with
    | none => { s with kinds := s.kinds.erase id, panicked := true }
    | some peer =>
      { s with kinds := s.kinds.erase id, peers := s.peers.erase id }.report cfg env id peer ok kind

/-- `retire_failed_dial`, quic/mod.rs:2653-2669; the entry it was called for is done with. -/
def retire (s : Quic I Q) (id : Nat) : Quic I Q :=
  let kind := s.kinds.get? id
  let peer := s.peers.get? id
  let s := { s with kinds := s.kinds.erase id, peers := s.peers.erase id, limbo := none }
  let s := match kind, peer with
    | some .reliablePing, _ => s
    | some k, some p => s.report cfg env id p false k
    | _, _ => s
  (s.callEp cfg env (some id) (.dialFailed id)).1

/-- The first lines of `process_dial_entry`, quic/mod.rs:3677-3707, and of `purge_dial_entry`, 3247-3262: the
entry leaves the books. -/
def takeEntry (s : Quic I Q) (d : QDial A) : Quic I Q :=
  let s := if d.attempted then s else { s with unattempted := s.unattempted - 1 }
  { (s.noteDown d.peer d.kind).setTimer (.dial d.id) none with hand := s.hand.tail, limbo := some d }

/-- `repark_blocked_dial`, quic/mod.rs:3610-3649. -/
def repark (s : Quic I Q) (d : QDial A) (now : Nat) : Quic I Q :=
  let d := { d with wake := dialWake X d.deadline now, attempted := true }
  let bucket : List (QDial A) := match s.parked.get? d.peer with
    | some l => l
    | none => []
  let s := s.setTimer (.dial d.id) (some d.wake)
  { s with parked := s.parked.insert d.peer (if d.kind = ExKind.reliablePing then d :: bucket else bucket ++ [d]),
           limbo := none }.noteUp d.peer d.kind

/-- A bridge is opened for stream `st` on stream `sid` of connection `ch`: `bridges.insert`,
`index_bridge_mint`, `bridge_by_conn_sid.insert` and the count of inbound bridges, quic/mod.rs:3796-3835,
5594-5623. -/
def openBridge (s : Quic I Q) (st : Stream I A) (ch sid : Nat) (eager : Bool) : Quic I Q :=
  let bucket := match s.byConn.get? ch with
    | some l => l
    | none => []
  let b := { QBridge.new st ch sid s.cmp cfg.maxStreamFrameSize X.label X.skipLabel eager with
             slot := bucket.length }
  { s with
    bridges := s.bridges.insert st.id b
    byConn := s.byConn.insert ch (bucket ++ [st.id])
    bySid := s.bySid.insert (ch, sid) st.id
    inbound := if s.kinds.contains st.id then s.inbound else s.inbound + 1
    panicked := s.panicked || st.pollTimeout.isNone
    loose := residue s.loose st.id }

/-- A dialled stream gets its bridge, quic/mod.rs:3795-3849. -/
def mintDialled (s : Quic I Q) (st : Stream I A) (ch sid : Nat) : Quic I Q :=
  let s := { s.openBridge cfg X st ch sid true with limbo := none }
  { s with pool := { s.pool with
      table := (s.table.on Q ch (fun e => ({ e with outbound := e.outbound + 1 }, ()))).1 } }

/-- `process_dial_entry` once the connection is known, quic/mod.rs:3759-3980. -/
def openDial (s : Quic I Q) (d : QDial A) (ch now : Nat) : Quic I Q × Attempted :=
  match s.table.conns.get? ch with
  | none => ({ s with limbo := none }, { res := .retired, touched := [ch] })
  | some e =>
    if d.kind ≠ .reliablePing ∧ e.outbound ≥ C_OUT then
      (s.repark X d now, { res := .reparked, touched := [ch] })
    else
      match s.table.on Q ch (fun e => e.via Q Q.openBi) with
      | (t, some (some sid)) =>
        match (s.putTable ch t).callEp cfg env (some d.id) (.dialSucceeded d.id now) with
        | (s, .stream (some st)) =>
          (s.mintDialled cfg X st ch sid, { res := .minted, minted := [st.id], touched := [ch] })
        | (s, _) =>
          ((s.retire cfg env d.id).useConn ch (fun c => Q.abandon c sid), { res := .retired, touched := [ch] })
      | (t, _) =>
        let s := s.putTable ch t
        let isClosed := match s.table.conns.get? ch with
          | some e => Q.closed e.conn
          | none => true
        if isClosed then (s.retire cfg env d.id, { res := .retired, touched := [ch] })
        else if now < d.deadline then (s.repark X d now, { res := .reparked, touched := [ch] })
        else (s.retire cfg env d.id, { res := .retired, touched := [ch] })

/-- `process_dial_entry`, quic/mod.rs:3659-4001. -/
def processDial (s : Quic I Q) (d : QDial A) (now : Nat) : Quic I Q × Attempted :=
  let s := s.takeEntry d
  if now ≥ d.deadline then (s.retire cfg env d.id, { res := .retired })
  else
    match s.pool.dial Q X.caps now d.peer with
    | (p, .error _) => ({ s with pool := p }.retire cfg env d.id, { res := .retired })
    | (p, .ok ch) => { s with pool := p, stale := residue s.stale ch }.openDial cfg env X d ch now

/-- What two parts of a pass report together. Model only, no counterpart in the code: the code adds to shared
locals. -/
def _root_.Verif.Serviced.add (a b : Serviced) : Serviced := ⟨a.minted ++ b.minted, a.touched ++ b.touched⟩

/-- A loop over taken entries, quic/mod.rs:3337-3339, 3341-3345, 4754-4756. -/
def processAll (now : Nat) : List (QDial A) → Quic I Q → Quic I Q × Serviced
  | [], s => (s, {})
  | d :: rest, s =>
    let r := s.processDial cfg env X d now
    let r2 := processAll now rest r.1
    (r2.1, Serviced.add ⟨r.2.minted, r.2.touched⟩ r2.2)

/-- `sieve_dial_events`, quic/mod.rs:2836-2876. -/
def sieve (s : Quic I Q) : Quic I Q :=
  let found := (Coord.dialsOf s.ep.sieveDials.2).map (fromRequest s.ep)
  found.foldl queueDial (s.callEp cfg env none .sieveDials).1

/-- `mem::take(&mut self.dial_pending)`. quic/mod.rs:3207. -/
def takeDials (s : Quic I Q) : Quic I Q := { s with dials := [], hand := s.dials }

/-- `mem::take(&mut self.dial_parked)`, in an arbitrary order of the peers. quic/mod.rs:3211 and 3340. -/
def takeParked (s : Quic I Q) : Quic I Q :=
  { s with
    tick := s.tick + 1
    parked := []
    hand := (T.order s.tick (List.range s.parked.length)).flatMap (fun i => match s.parked[i]? with
      | some e => e.2
      | none => []) }

/-- `service_dials`, quic/mod.rs:3325-3350. -/
def serviceDials (s : Quic I Q) (now : Nat) : Quic I Q × Serviced :=
  let s := (s.sieve cfg env).takeDials
  let r := s.processAll cfg env X now s.hand
  let s := r.1.takeParked T
  let r2 := s.processAll cfg env X now s.hand
  (r2.1, r.2.add r2.2)

/-- The entry at the front of a peer's bucket is taken: `bucket.pop_front()`, quic/mod.rs:3417-3429,
3447-3453. -/
def popParked (s : Quic I Q) (peer : A) (d : QDial A) (rest : List (QDial A)) : Quic I Q :=
  { s with parked := s.parked.insert peer rest, hand := [d] }

/-- What the loop of `service_peer_bucket` leaves: the budget, `attempted_any`, `last_was_reparked` and the
report. quic/mod.rs:3380-3536. -/
structure BucketEnd where
  budget : Option Nat
  any : Bool
  last : Bool
  out : Serviced := {}

/-- The loop of `service_peer_bucket`, quic/mod.rs:3403-3481. `pops` counts the pings popped on an exhausted
budget. Every round pops an entry, and one that puts an entry back ends the loop, so the length of the
bucket bounds the number of rounds. -/
def bucketLoop (peer : A) (now : Nat) : Nat → Quic I Q → Nat → BucketEnd → Quic I Q × BucketEnd
  | 0, s, _, b => (s, b)
  | fuel + 1, s, pops, b =>
    match s.parked.get? peer with
    | some (d :: rest) =>
      if b.budget = some 0 then
        if pops ≥ X.exemptPops ∨ d.kind ≠ .reliablePing then (s, b)
        else
          let r := (s.popParked peer d rest).processDial cfg env X d now
          let b := { b with out := b.out.add ⟨r.2.minted, r.2.touched⟩ }
          if r.2.res = .reparked then (r.1, b) else bucketLoop peer now fuel r.1 (pops + 1) b
      else
        let r := (s.popParked peer d rest).processDial cfg env X d now
        let b := { b with budget := b.budget.map (· - 1), any := true, last := r.2.res = .reparked,
                          out := b.out.add ⟨r.2.minted, r.2.touched⟩ }
        if r.2.res = .reparked then (r.1, b) else bucketLoop peer now fuel r.1 pops b
    | _ => (s, b)

/-- The end of `service_peer_bucket`, quic/mod.rs:3489-3531: an empty bucket is dropped, and a peer with
dials left that did not just block again waits for the next pass. -/
def bucketDone (s : Quic I Q) (peer : A) (now : Nat) (b : BucketEnd) : Quic I Q :=
  match s.parked.get? peer with
  | none => s
  | some [] => { s with parked := s.parked.erase peer }
  | some (d :: _) =>
    if !b.any || !b.last then
      { s with readyDials := if d.deadline < now + X.catchup * 2 then residueFront s.readyDials peer
                             else residue s.readyDials peer }
    else s

/-- `service_peer_bucket`, quic/mod.rs:3380-3536. -/
def servicePeer (s : Quic I Q) (peer : A) (now : Nat) (budget : Option Nat) : Quic I Q × BucketEnd :=
  let len := match s.parked.get? peer with
    | some l => l.length
    | none => 0
  let r := s.bucketLoop cfg env X peer now len 0 { budget, any := false, last := false }
  (r.1.bucketDone X peer now r.2, r.2)

/-! ### Bridges -/

/-- A bridge is replaced. Model only, no counterpart in the code: an update of the map of bridges. -/
def tweak (s : Quic I Q) (id : Nat) (b : QBridge I A) : Quic I Q := { s with bridges := s.bridges.insert id b }

/-- A bridge and its connection after a step of the bridge. Model only, no counterpart in the code: an update of
the map of bridges and of the connections. -/
def putWork (s : Quic I Q) (id : Nat) (w : QBridge I A × ConnTable Q.C Q.V A) : Quic I Q :=
  (s.putTable w.1.ch w.2).tweak id w.1

/-- The work on a bridge begins, quic/mod.rs:4162. -/
def begin (s : Quic I Q) (id : Nat) (b : QBridge I A) : Quic I Q :=
  { s.tweak id { b with queued := false } with loose := residue s.loose id }

/-- A bridge, its connection and the endpoint after the events of the bridge were handed over. Model only, no
counterpart in the code: an update of the map of bridges, of the connections and of the endpoint. -/
def putDrain (s : Quic I Q) (id : Nat)
    (r : Ep I A × QBridge I A × ConnTable Q.C Q.V A × List (Ep.Op I A)) : Quic I Q :=
  { s.putWork id (r.2.1, r.2.2.1) with
    ep := r.1, calls := s.calls ++ r.2.2.2.map (fun op => (some id, op)) }

/-- `deindex_reaped_bridge_bucketless`, quic/mod.rs:2121-2131, and the removal of the bridge. -/
def unindex (s : Quic I Q) (id ch sid : Nat) : Quic I Q :=
  { s.setTimer (.bridge id) none with
    bridges := s.bridges.erase id
    bySid := s.bySid.erase (ch, sid)
    inbound := if s.kinds.contains id then s.inbound else s.inbound - 1
    loose := s.loose.filter (· ≠ id)
    gone := s.gone ++ (s.bridges.get? id).toList }

/-- `index_bridge_reap`, quic/mod.rs:2174-2207. -/
def unslot (s : Quic I Q) (ch slot : Nat) : Quic I Q :=
  match s.byConn.get? ch with
  | none => s
  | some l =>
    if slot < l.length then
      let l' := swapRemove l slot
      { s with
        bridges := match l'[slot]? with
          | some sib => s.bridges.modify sib (fun b => { b with slot := slot })
          | none => s.bridges
        byConn := if l' = [] then s.byConn.erase ch else s.byConn.insert ch l' }
    else { s with panicked := true }

/-- `on_dialer_bridge_reaped`, quic/mod.rs:2223-2232. -/
def freeSlot (s : Quic I Q) (ch : Nat) : Quic I Q :=
  match s.table.conns.get? ch with
  | none => s
  | some e =>
    { s with
      pool := { s.pool with table := { s.table with
        conns := s.table.conns.insert ch { e with outbound := e.outbound - 1 } } }
      freed := residue s.freed e.peer }

/-- What follows `drain_then_reap`, quic/mod.rs:4179-4192, 4209-4220 and, for a lost connection, 5921-5939. -/
def reapBridge (s : Quic I Q) (id : Nat) (b : QBridge I A) (ch : Nat) (lost : Bool) : Quic I Q :=
  let s := s.unindex id ch b.sid
  let s := if lost then { s with doom := s.doom.tail } else s.unslot ch b.slot
  let s := if b.eager then s.freeSlot ch else s
  s.complete cfg env id (!b.isFailed)

/-- `drain_then_reap` and what follows it. quic/mod.rs:4178, 4208, 5908. -/
def drainReap (s : Quic I Q) (id : Nat) (b : QBridge I A) (ch now : Nat) (lost : Bool) : Quic I Q :=
  let r := QBridge.drainThenReap cfg env T Q s.cmp s.ep s.table b now
  (s.putDrain id r).reapBridge cfg env id r.2.1 ch lost

/-- A bridge that is not done after its events were handed over keeps its place; its timer is read again. Otherwise it
is reaped. quic/mod.rs:4200-4234. -/
def afterDrain (s : Quic I Q) (id ch now : Nat)
    (r : Ep I A × QBridge I A × ConnTable Q.C Q.V A × List (Ep.Op I A)) : Quic I Q :=
  let s := s.putDrain id r
  if r.2.1.isTerminal then s.drainReap cfg env T id r.2.1 ch now false
  else { s.setTimer (.bridge id) r.2.1.pollTimeout with loose := s.loose.filter (· ≠ id) }

/-- What `pump_one_bridge` does with a bridge once its bytes were moved, quic/mod.rs:4174-4234. -/
def afterPump (s : Quic I Q) (id ch now : Nat) (w : QBridge I A × ConnTable Q.C Q.V A) : Quic I Q :=
  let s := s.putWork id w
  if w.1.isTerminal then s.drainReap cfg env T id w.1 ch now false
  else s.afterDrain cfg env T id ch now (QBridge.drainPayloadOnly cfg env T Q s.cmp s.ep s.table w.1 now)

/-- `pump_one_bridge`, quic/mod.rs:4151-4235. The answer is the connection of the bridge. -/
def pumpOne (now : Nat) (s : Quic I Q) (id : Nat) : Quic I Q × Option Nat :=
  match s.bridges.get? id with
  | none => (s, none)
  | some b =>
    let s := s.begin id b
    let w := { b with queued := false }.pumpIn env.CI env.CA T Q s.table now
    (s.afterPump cfg env T id b.ch now (w.1.pumpOut Q T w.2 now), some b.ch)

/-- `pump_bridges`, quic/mod.rs:4074-4079. -/
def pumpAll (s : Quic I Q) (now : Nat) : Quic I Q :=
  (T.order s.tick s.bridges.keys).foldl (fun s id => (s.pumpOne cfg env T now id).1) { s with tick := s.tick + 1 }

/-- The loop of `drain_ready_bridges`, quic/mod.rs:4122-4132; the number of rounds is the smaller of the
budget and the length of the queue, which no round lengthens. -/
def readyLoop (now : Nat) : Nat → Quic I Q → List Nat → Quic I Q × List Nat
  | 0, s, conns => (s, conns)
  | n + 1, s, conns =>
    match s.ready with
    | [] => (s, conns)
    | id :: rest =>
      let r := { s with ready := rest }.pumpOne cfg env T now id
      readyLoop now n r.1 (match r.2 with
        | some ch => residue conns ch
        | none => conns)

/-- `drain_ready_bridges`, quic/mod.rs:4115-4134: the state, the budget left and the connections pumped. -/
def drainReady (s : Quic I Q) (now : Nat) (budget : Option Nat) : Quic I Q × Option Nat × List Nat :=
  let n := match budget with
    | some b => Nat.min b s.ready.length
    | none => s.ready.length
  let r := s.readyLoop cfg env T now n []
  (r.1, budget.map (· - n), r.2)

/-- The freshly opened bridges are queued, quic/mod.rs:4554-4556, 4670-4672, 4757-4759, 5222-5224. -/
def enqueueAll (s : Quic I Q) (ids : List Nat) : Quic I Q := ids.foldl enqueue s

/-- Both budgets of a pass, and the connections to flush. The locals of `drain_ready_bridges`,
quic/mod.rs:5176-5178. -/
structure Pass where
  pumps : Option Nat
  dials : Option Nat
  touched : List Nat := []

/-- `to_flush` with more connections. quic/mod.rs:4674-4700. -/
def merge (l m : List Nat) : List Nat := m.foldl residue l

/-- One peer of `service_slot_freed_peers`, quic/mod.rs:4549-4569. -/
def freedPeer (now : Nat) (r : Quic I Q × Pass) (peer : A) : Quic I Q × Pass :=
  let k := r.1.servicePeer cfg env X peer now r.2.dials
  let d := (k.1.enqueueAll k.2.out.minted).drainReady cfg env T now r.2.pumps
  (d.1, { pumps := d.2.1, dials := k.2.budget, touched := merge (merge r.2.touched k.2.out.touched) d.2.2 })

/-- The loop of `service_slot_freed_peers`, quic/mod.rs:4537-4570. -/
def freedLoop (now : Nat) : Nat → Quic I Q × Pass → Quic I Q × Pass
  | 0, r => if r.1.freed = [] then r else ({ r.1 with capped := true }, r.2)
  | n + 1, r =>
    if r.1.freed = [] then r
    else freedLoop now n (r.1.freed.foldl (freedPeer cfg env X T now) ({ r.1 with freed := [] }, r.2))

/-- `iter_cap`, quic/mod.rs:4532-4535. -/
def iterCap : Nat :=
  match X.caps.maxConns with
  | some m => m * 2
  | none => 2 ^ 20

/-- `service_slot_freed_peers`, quic/mod.rs:4518-4572. -/
def serviceFreed (s : Quic I Q) (now : Nat) (pumps dials : Option Nat) : Quic I Q × Pass :=
  freedLoop cfg env X T now (iterCap X) (s, { pumps, dials })

/-- Flush the given connections. quic/mod.rs:4703. -/
def collect (s : Quic I Q) (now : Nat) (chs : List Nat) : Quic I Q := chs.foldl (collectConn now) s

/-! ### Connections -/

/-- A stream event reaches the bridge that runs over the stream: quic/mod.rs:5648-5650, 5676-5683, 5706-5714,
5746-5753. -/
def notice (s : Quic I Q) (ch sid : Nat) (f : QBridge I A → QBridge I A) : Quic I Q :=
  match s.bySid.get? (ch, sid) with
  | none => s
  | some id =>
    match s.bridges.get? id with
    | none => s
    | some b => (s.tweak id (f b)).enqueue id

/-- One accepted stream gets its bridge, quic/mod.rs:5566-5639. -/
def acceptOne (s : Quic I Q) (ch sid : Nat) (peer : A) (now : Nat) : Quic I Q :=
  if X.maxInbound.any (fun max => max ≤ s.inbound) then s.useConn ch (fun c => Q.abandon c sid)
  else
    match s.callEp cfg env none (.acceptStream peer now) with
    | (s, .stream (some st)) => (s.openBridge cfg X st ch sid false).enqueue st.id
    | (s, _) => s.useConn ch (fun c => Q.abandon c sid)

/-- The loop over `streams().accept(Dir::Bi)`, quic/mod.rs:5559-5640. -/
def acceptLoop (ch now : Nat) : Nat → Quic I Q → Quic I Q
  | 0, s => s
  | fuel + 1, s =>
    match s.table.on Q ch (fun e => ((e.via Q Q.acceptBi).1, (e.via Q Q.acceptBi).2, e.peer)) with
    | (_, none) => s
    | (t, some (none, _)) => s.putTable ch t
    | (t, some (some sid, peer)) => acceptLoop ch now fuel ((s.putTable ch t).acceptOne cfg env X ch sid peer now)

/-- The reaction to one event of a connection, quic/mod.rs:5515-5768. -/
def onEvent (s : Quic I Q) (ch now : Nat) : ConnEv → Quic I Q
  | .opened => s.acceptLoop cfg env X ch now Q.fuel
  | .readable sid | .writable sid => s.notice ch sid id
  | .finished sid => s.notice ch sid QBridge.observeSendFin
  | .stopped sid => (s.useConn ch (fun c => Q.abandon c sid)).notice ch sid (fun b => b.drop .transport)
  | .lost | .available | .other => s

/-- The poll loop, quic/mod.rs:5514-5769; the flags are `lost` and `credit_restored`. -/
def pollLoop (ch now : Nat) : Nat → Quic I Q → Bool → Bool → Quic I Q × Bool × Bool
  | 0, s, lost, credit => (s, lost, credit)
  | fuel + 1, s, lost, credit =>
    match s.table.on Q ch (fun e => e.via Q Q.poll) with
    | (_, none) => (s, lost, credit)
    | (t, some none) => (s.putTable ch t, lost, credit)
    | (t, some (some ev)) =>
      pollLoop ch now fuel ((s.putTable ch t).onEvent cfg env X ch now ev) (lost || decide (ev = .lost))
        (credit || decide (ev = .available))

/-- The queued connection events and the time, quic/mod.rs:5504-5508. -/
def feed (s : Quic I Q) (ch now : Nat) : Quic I Q :=
  s.putTable ch (s.table.on Q ch (fun e =>
    (((e.pendingEvents.foldl (fun (e : QConn Q.C Q.V A) v => (e.via Q (fun c => (Q.event c v, ()))).1)
      { e with pendingEvents := [] }).via Q (fun c => (Q.timeout c now, ()))).1, ()))).1

/-- The endpoint events, quic/mod.rs:5797-5814. -/
def endpointLoop (ch : Nat) : Nat → Quic I Q → Quic I Q
  | 0, s => s
  | fuel + 1, s =>
    match s.table.on Q ch (fun e => e.via Q Q.pollEndpoint) with
    | (_, none) => s
    | (t, some none) => s.putTable ch t
    | (t, some (some none)) => endpointLoop ch fuel (s.putTable ch t)
    | (t, some (some (some w))) =>
      let r := Q.endpointEvent s.pool.quinn ch w
      let t := match r.2 with
        | none => t
        | some v => (t.on Q ch (fun e => ({ e with pendingEvents := e.pendingEvents ++ [v] }, ()))).1
      endpointLoop ch fuel { s.putTable ch t with pool := { s.pool with table := t, quinn := r.1 } }

/-- The received datagrams, quic/mod.rs:5834-5849. -/
def datagramLoop (ch : Nat) : Nat → Quic I Q → Quic I Q
  | 0, s => s
  | fuel + 1, s =>
    match s.table.on Q ch (fun e => ((e.via Q Q.recvDgram).1, (e.via Q Q.recvDgram).2, e.peer)) with
    | (_, none) => s
    | (t, some (none, _)) => s.putTable ch t
    | (t, some (some bytes, peer)) => datagramLoop ch fuel ((s.putTable ch t).pushIngress peer bytes)

/-- `bridges_by_conn.remove(&ch)`, quic/mod.rs:5897. -/
def takeBucket (s : Quic I Q) (ch : Nat) : Quic I Q :=
  { s with byConn := s.byConn.erase ch
           doom := match s.byConn.get? ch with
             | some l => l
             | none => [] }

/-- One bridge of a lost connection, quic/mod.rs:5906-5940. -/
def reapLost (ch now : Nat) (s : Quic I Q) (id : Nat) : Quic I Q :=
  match s.bridges.get? id with
  | none => { s with doom := s.doom.tail }
  | some b =>
    let b := b.fail .connectionLost
    (s.tweak id b).drainReap cfg env T id b ch now true

/-- The end of `service_one_conn`, quic/mod.rs:5860-5962. -/
def settleConn (s : Quic I Q) (ch now : Nat) (before lost credit : Bool) : Quic I Q × Marks A :=
  match s.table.conns.get? ch with
  | none => ({ s with hot := none }, {})
  | some e =>
    let s := if lost || Q.drained e.conn then
        let s := s.takeBucket ch
        s.doom.foldl (reapLost cfg env T ch now) s
      else s
    let s := s.putTable ch (s.table.reconcile Q ch)
    let s := { s with hot := none
                      eventful := if e.pendingEvents ≠ [] then residue s.eventful ch
                                  else s.eventful.filter (· ≠ ch) }
    (s, { established := !before && e.established, credit := if credit then some e.peer else none })

/-- `service_one_conn`, quic/mod.rs:5483-5962. -/
def serviceOne (s : Quic I Q) (ch now : Nat) : Quic I Q × Marks A :=
  match s.table.conns.get? ch with
  | none => ({ s with hot := none }, {})
  | some e =>
    let r := ({ s with hot := some ch }.feed ch now).pollLoop cfg env X ch now Q.fuel false false
    ((r.1.endpointLoop ch Q.fuel).datagramLoop ch Q.fuel).settleConn cfg env T ch now e.established r.2.1 r.2.2

/-- The peer of a connection that just came up, quic/mod.rs:5203-5206, 5450-5453. -/
def establishedPeer (s : Quic I Q) (ch : Nat) (m : Marks A) : Option A :=
  if m.established then (s.table.conns.get? ch).map QConn.peer else none

/-- The peer whose waiting dials are tried again, quic/mod.rs:5213-5237. -/
def resume (d : Quic I Q × Option Nat × List Nat) (peer : Option A) (now : Nat) : Quic I Q × Pass :=
  match peer with
  | none => (d.1, { pumps := d.2.1, dials := some Q_DIALS, touched := d.2.2 })
  | some p =>
    let k := d.1.servicePeer cfg env X p now (some Q_DIALS)
    let d2 := (k.1.enqueueAll k.2.out.minted).drainReady cfg env T now d.2.1
    (d2.1, { pumps := d2.2.1, dials := k.2.budget, touched := merge (merge d.2.2 d2.2.2) k.2.out.touched })

/-- A drained connection is forgotten, another one is flushed, quic/mod.rs:5244-5250. -/
def flushOne (s : Quic I Q) (ch now : Nat) : Quic I Q :=
  match s.reapConn ch with
  | (s, true) => { s with byConn := s.byConn.erase ch }
  | (s, false) => s.collectConn now ch

/-- `service_connection`, quic/mod.rs:5135-5284. -/
def serviceConnection (s : Quic I Q) (ch now : Nat) : Quic I Q :=
  let r := s.serviceOne cfg env X T ch now
  let d := r.1.drainReady cfg env T now (some Q_PUMPS)
  let peer := match r.2.credit with
    | some p => some p
    | none => d.1.establishedPeer ch r.2
  let k := resume cfg env X T d peer now
  let s := (k.1.flushOne ch now).collect now (k.2.touched.filter (· ≠ ch))
  let f := s.serviceFreed cfg env X T now k.2.pumps k.2.dials
  (f.1.collect now f.2.touched).reconcileCatchup X now

/-- `service_quinn`, quic/mod.rs:5442-5464. -/
def serviceQuinn (s : Quic I Q) (now : Nat) : Quic I Q × List A :=
  (T.order s.tick s.table.conns.keys).foldl (fun r ch =>
    let m := r.1.serviceOne cfg env X T ch now
    (m.1, (m.2.credit.toList ++ (m.1.establishedPeer ch m.2).toList).foldl residue r.2))
    ({ s with tick := s.tick + 1 }, [])

/-- `finalize_tick`, quic/mod.rs:2699-2749. -/
def finalize (s : Quic I Q) (now : Nat) : Quic I Q :=
  let s := (T.order s.tick s.table.conns.keys).foldl (fun s ch => (s.reapConn ch).1) { s with tick := s.tick + 1 }
  let s := s.collectAll T now
  { s with ready := [], catchupAt := none }

/-- `tick` with `advance_membership_time`, quic/mod.rs:5288-5343. -/
def runTick (s : Quic I Q) (now : Nat) : Quic I Q :=
  let s := s.pumpAll cfg env T now
  let s := (s.callEp cfg env none (.timeout now)).1
  let s := (s.serviceQuinn cfg env X T now).1
  let s := (s.serviceDials cfg env X T now).1
  let s := { s with readyDials := [] }
  let s := s.pumpAll cfg env T now
  let s := (s.serviceFreed cfg env X T now none none).1
  s.finalize T now

/-- `flush_outbound`, quic/mod.rs:5391-5433. -/
def flush (s : Quic I Q) (now : Nat) : Quic I Q :=
  let s := s.pumpAll cfg env T now
  let r := s.serviceQuinn cfg env X T now
  let s := r.2.foldl (fun s p => (s.servicePeer cfg env X p now none).1) r.1
  let s := s.readyDials.foldl (fun s p => (s.servicePeer cfg env X p now none).1) { s with readyDials := [] }
  let s := s.pumpAll cfg env T now
  let s := (s.serviceFreed cfg env X T now none none).1
  s.finalize T now

/-- The loop over `ready_dial_peers`, quic/mod.rs:4655-4678; `n` is the smaller of the visits allowed and the
peers queued at the start. -/
def readyDialLoop (now : Nat) : Nat → Quic I Q × Pass → Quic I Q × Pass
  | 0, r => r
  | n + 1, r =>
    if r.2.dials = some 0 then r
    else
      match r.1.readyDials with
      | [] => r
      | p :: rest =>
        let k := { r.1 with readyDials := rest }.servicePeer cfg env X p now r.2.dials
        readyDialLoop now n (k.1.enqueueAll k.2.out.minted,
          { r.2 with dials := k.2.budget, touched := merge r.2.touched k.2.out.touched })

/-- `catchup_service`, quic/mod.rs:4604-4712. -/
def catchupService (s : Quic I Q) (now : Nat) : Quic I Q :=
  let r := readyDialLoop cfg env X now (Nat.min Q_VISITS s.readyDials.length)
    (s, { pumps := some Q_PUMPS, dials := some Q_DIALS })
  let d := r.1.drainReady cfg env T now r.2.pumps
  let f := d.1.serviceFreed cfg env X T now d.2.1 r.2.dials
  (f.1.collect now (merge (merge r.2.touched d.2.2) f.2.touched)).advanceCatchup X now

/-- The dials not tried yet, quic/mod.rs:4750-4778. -/
def tryNew (s : Quic I Q) (now : Nat) : Quic I Q :=
  if s.unattempted > 0 then
    let s := s.takeDials
    let r := s.processAll cfg env X now s.hand
    let d := (r.1.enqueueAll r.2.minted).drainReady cfg env T now (some Q_PUMPS)
    d.1.collect now (merge (merge [] r.2.touched) d.2.2)
  else s

/-- `immediate_service`, quic/mod.rs:4737-4801. -/
def immediateService (s : Quic I Q) (now : Nat) : Quic I Q :=
  let s := (T.order s.tick s.eventful).foldl (fun s ch => s.serviceConnection cfg env X T ch now)
    { s with tick := s.tick + 1 }
  let s := s.tryNew cfg env X T now
  let f := s.serviceFreed cfg env X T now (some Q_PUMPS) (some Q_DIALS)
  (f.1.collect now f.2.touched).reconcileCatchup X now

/-! ### The interface -/

/-- The residue and the work due at once, without a tick, quic/mod.rs:4457-4462. -/
def between (s : Quic I Q) (now : Nat) (catchup immediate : Bool) : Quic I Q :=
  let s := if catchup then s.catchupService cfg env X T now else s
  if immediate then s.immediateService cfg env X T now else s

/-- The three ways of `handle_timeout`, quic/mod.rs:4436-4468. -/
def wake (s : Quic I Q) (now : Nat) : Quic I Q :=
  let scheduled := (s.index.earliestExcluding2 .catchup .immediateDue).any (fun d => d ≤ now)
  let catchup := s.catchupAt.any (fun t => t ≤ now) && s.hasResidue
  let immediate := !s.eventful.isEmpty || decide (s.unattempted > 0)
  if scheduled then s.runTick cfg env X T now
  else if catchup || immediate then s.between cfg env X T now catchup immediate
  else s.runTick cfg env X T now

/-- `handle_timeout`, quic/mod.rs:4425-4469. -/
def timeout (s : Quic I Q) (now : Nat) : Quic I Q := { s with lastNow := some now }.refresh.wake cfg env X T now

/-- `handle_udp`, quic/mod.rs:4317-4347. Only a new connection is indexed before it is serviced (2513). -/
def udp (s : Quic I Q) (src : A) (bytes : Bytes) (now : Nat) : Quic I Q :=
  let s := { s with lastNow := some now }
  match classifyDgram bytes with
  | .quic =>
    match s.pool.datagram Q X.caps now src bytes with
    | (p, none) => { s with pool := p }
    | (p, some ch) =>
      let s' := { s with pool := p, stale := residue s.stale ch, hot := some ch }
      (if s.table.conns.contains ch then s' else s'.indexConn ch).serviceConnection cfg env X T ch now
  | .memberlist => s.pushIngress src bytes
  | .reject => s

/-- `service_started_exchange`, quic/mod.rs:4846-4882. -/
def serviceStarted (s : Quic I Q) (d : QDial A) (now : Nat) : Quic I Q :=
  let r := s.processDial cfg env X d now
  let s := r.2.minted.foldl (fun s id => (s.pumpOne cfg env T now id).1) r.1
  let s := s.collect now r.2.touched
  let f := s.serviceFreed cfg env X T now (some Q_PUMPS) (some Q_DIALS)
  (f.1.collect now f.2.touched).reconcileCatchup X now

/-- The part the `start_*` calls share, quic/mod.rs:4955-4967, 5006-5018, 5054-5072. The entry counts as
waiting from here on; only a user message is counted. -/
def launch (s : Quic I Q) (id : Nat) (peer : A) (deadline : Nat) (kind : ExKind) : Quic I Q :=
  { s with kinds := s.kinds.insert id kind, peers := s.peers.insert id peer
           hand := [{ id, peer, deadline, wake := deadline, attempted := true, kind }] }.noteUp peer kind

/-- `start_push_pull`, quic/mod.rs:4940-4972, with `emit_inert_dial_failed`, 4899-4911. The kind of the intent
is the one of the call. -/
def startPushPull (s : Quic I Q) (peer : A) (kind : PushPullKind) (now : Nat) : Quic I Q × Nat :=
  let r := s.ep.startPushPullDirect cfg env peer kind now
  let s := ({ s with lastNow := some now }.callEp cfg env none (.startPushPullDirect peer kind now)).1
  match r.2.2 with
  | some i =>
    ((s.launch r.2.1 peer i.deadline .pushPull).serviceStarted cfg env X T
      { id := r.2.1, peer, deadline := i.deadline, wake := i.deadline, attempted := true, kind := .pushPull } now,
      r.2.1)
  | none => (s.report cfg env r.2.1 peer false .pushPull, r.2.1)

/-- `start_reliable_ping`, quic/mod.rs:4992-5023. -/
def startReliablePing (s : Quic I Q) (peerId : I) (peer : A) (seq deadline now : Nat) : Quic I Q × Nat :=
  let r := s.ep.startReliablePingDirect cfg env peerId peer seq deadline
  let s := ({ s with lastNow := some now }.callEp cfg env none
    (.startReliablePingDirect peerId peer seq deadline)).1
  match r.2.2 with
  | some i =>
    ((s.launch r.2.1 peer i.deadline .reliablePing).serviceStarted cfg env X T
      { id := r.2.1, peer, deadline := i.deadline, wake := i.deadline, attempted := true, kind := .reliablePing }
      now, r.2.1)
  | none => (s, r.2.1)

/-- Why `start_user_message` was refused. quic/mod.rs:5038-5050. -/
inductive StartErr where
  | backlogFull | endpoint (e : EpErr)

/-- `start_user_message`, quic/mod.rs:5033-5074. -/
def startUserMessage (s : Quic I Q) (peer : A) (payload : Bytes) (now : Nat) : Quic I Q × Except StartErr Nat :=
  if ConnTable.count s.backlog peer ≥ X.maxUserDials then (s, .error .backlogFull)
  else
    let r := s.ep.startUserMessageDirect cfg env peer payload now
    let s := ({ s with lastNow := some now }.callEp cfg env none (.startUserMessageDirect peer payload now)).1
    match r.2 with
    | .error e => (s, .error (.endpoint e))
    | .ok (id, i) =>
      ((s.launch id peer i.deadline .userMessage).serviceStarted cfg env X T
        { id, peer, deadline := i.deadline, wake := i.deadline, attempted := true, kind := .userMessage } now,
        .ok id)

/-- `purge_dial_entry`, quic/mod.rs:3246-3272. -/
def purgeDial (s : Quic I Q) (d : QDial A) : Quic I Q := (s.takeEntry d).retire cfg env d.id

/-- `purge_reliable_dials`, quic/mod.rs:3203-3231. -/
def purgeDials (s : Quic I Q) : Quic I Q :=
  let s := s.takeDials
  let s := s.hand.foldl (purgeDial cfg env) s
  let s := s.takeParked T
  let s := s.hand.foldl (purgeDial cfg env) s
  { s with readyDials := [] }

/-- `leave_with`, quic/mod.rs:3168-3187. -/
def leave (s : Quic I Q) (now : Nat) (farewell : Option Bytes) : Quic I Q :=
  let s := ({ s with lastNow := some now }.callEp cfg env none (.leave now farewell)).1
  if s.ep.isRunning then s else s.purgeDials cfg env T

/-- `set_encryption_options`, quic/mod.rs:1784-1809. The bridges do not encrypt. -/
def setEncryption (s : Quic I Q) (ring : Option Keyring) : Quic I Q :=
  if s.ring = ring then s else { s with ring := ring, ingress := [], perPeer := [] }

/-- `set_compression_options`, quic/mod.rs:1289-1297. -/
def setCompression (s : Quic I Q) (cmp : CmpOptions) : Quic I Q :=
  ({ s with cmp := cmp }.callEp cfg env none .setResponseCompression).1

/-- `poll_event`, quic/mod.rs:1941-1973. The fuel is the number of queued events. -/
def pollEventLoop : Nat → Quic I Q → Quic I Q × Option (Event I A)
  | 0, s => (s, none)
  | fuel + 1, s =>
    let ev := s.ep.pollEvent.2
    let s := (s.callEp cfg env none .pollEvent).1
    match ev with
    | none => (s, none)
    | some (.dialRequested id peer deadline) =>
      let d := fromRequest s.ep (id, peer, deadline)
      pollEventLoop fuel ((s.queueDial d).setTimer (.dial id) (some deadline))
    | some ev => (s, some ev)

/-- `poll_event`, quic/mod.rs:1941-1973. -/
def pollEvent (s : Quic I Q) : Quic I Q × Option (Event I A) :=
  s.pollEventLoop cfg env (s.ep.core.events.length + 1)

/-- Every call of the node's interface that changes it. Model only, no counterpart in the code: it gathers the
public methods, quic/mod.rs. -/
inductive QOp (I A : Type) where
  | udp (src : A) (bytes : Bytes) (now : Nat)
  | timeout (now : Nat)
  | flush (now : Nat)
  | startPushPull (peer : A) (kind : PushPullKind) (now : Nat)
  | startReliablePing (peerId : I) (peer : A) (seq deadline now : Nat)
  | startUserMessage (peer : A) (payload : Bytes) (now : Nat)
  | leave (now : Nat) (farewell : Option Bytes)
  | setEncryption (ring : Option Keyring)
  | setCompression (cmp : CmpOptions)
  | queueDatagram (peer : A) (bytes : Bytes) (now : Nat)
  | openUni (peer : A) (now : Nat)
  | pollTransmit
  | pollIngress
  | pollEvent
  | pollTimeout
  | direct (d : Coord.Direct I A)

/-- What a call returns. Model only, no counterpart in the code: it gathers the results of the public methods,
quic/mod.rs. -/
inductive QOut (I A : Type) where
  | unit
  | datagram (r : Option (A × Bytes))
  | event (r : Option (Event I A))
  | started (r : Except StartErr Nat)
  | status (r : DgramStatus)
  | bool (r : Bool)
  | time (r : Option Nat)
  | endpoint (r : Ep.Out I A)

/-- The instant the node remembers for a call it only passes on: `start_probe` alone, quic/mod.rs:3140-3143. -/
def directTime : Coord.Direct I A → Option Nat
  | .startProbe now => some now
  | _ => none

/-- One call: the new state and what the call returns. Model only, no counterpart in the code: it dispatches to
the modelled methods. -/
def step (s : Quic I Q) : QOp I A → Quic I Q × QOut I A
  | .udp src bytes now => (s.udp cfg env X T src bytes now, .unit)
  | .timeout now => (s.timeout cfg env X T now, .unit)
  | .flush now => (s.flush cfg env X T now, .unit)
  | .startPushPull peer kind now =>
    ((s.startPushPull cfg env X T peer kind now).1, .started (.ok (s.startPushPull cfg env X T peer kind now).2))
  | .startReliablePing pid peer seq d now =>
    ((s.startReliablePing cfg env X T pid peer seq d now).1,
      .started (.ok (s.startReliablePing cfg env X T pid peer seq d now).2))
  | .startUserMessage peer payload now =>
    ((s.startUserMessage cfg env X T peer payload now).1,
      .started (s.startUserMessage cfg env X T peer payload now).2)
  | .leave now farewell => (s.leave cfg env T now farewell, .unit)
  | .setEncryption ring => (s.setEncryption ring, .unit)
  | .setCompression cmp => (s.setCompression cfg env cmp, .unit)
  | .queueDatagram peer bytes now =>
    ((s.queueDatagram X peer bytes now).1, .status (s.queueDatagram X peer bytes now).2)
  | .openUni peer now => ((s.openUni peer now).1, .bool (s.openUni peer now).2)
  | .pollTransmit => (s.pollTransmit.1, .datagram s.pollTransmit.2)
  | .pollIngress => (s.pollIngress.1, .datagram s.pollIngress.2)
  | .pollEvent => ((s.pollEvent cfg env).1, .event (s.pollEvent cfg env).2)
  | .pollTimeout => (s.pollTimeout.1, .time s.pollTimeout.2)
  | .direct d =>
    let s := { s with lastNow := match directTime d with
                                 | some now => some now
                                 | none => s.lastNow }
    ((s.callEp cfg env none d.op.1).1, .endpoint (s.callEp cfg env none d.op.1).2)

/-- The state after a history. Model only, no counterpart in the code: a history of calls. -/
def run (s : Quic I Q) (ops : List (QOp I A)) : Quic I Q :=
  ops.foldl (fun s op => (s.step cfg env X T op).1) s

/-- What the calls of a history returned, in order. Model only, no counterpart in the code: a history of calls.
-/
def outs (s : Quic I Q) : List (QOp I A) → List (QOut I A)
  | [] => []
  | op :: ops => (s.step cfg env X T op).2 :: outs (s.step cfg env X T op).1 ops
end
end Quic
end Verif
