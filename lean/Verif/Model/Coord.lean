import Verif.Model.Bridge
/-
Model of the stream coordinator over plain TCP: the endpoint, its reliable exchanges and the queues the
driver drains.
Source: /repo/memberlist-proto/src/streams/mod.rs, streams/conn.rs.

The record layer is `Labeled<Passthrough>` (see Model/Bridge.lean). `dial_context`, `dialer` and
`acceptor` of that layer do not fail (streams/labeled/mod.rs:72-93, 443-477), so their error branches are
left out. `peer_to_socket` is a function of the peer, so the model tags bytes with the peer instead of
its socket address. `PendingDial::attempted` is `false` in every entry the code creates, so it is left
out. Exchange ids are a `u64` counter; the model does not wrap. Metrics, the gossip codec wrappers
(`compress_gossip` and its relatives, modelled in Model/Transform.lean), `requeue_event` of an event
other than a dial request, and the direct calls `handle_alive` / `handle_suspect` are not modelled.
-/
namespace Verif

/-- `PendingMint`, streams/mod.rs:136-140. -/
inductive Mint (A : Type) where
  | outbound (sid : Nat)
  | inbound (peer : A)
  deriving DecidableEq, Repr

/-- `ExchangeMeta`, streams/mod.rs:153-196. -/
structure XMeta (A : Type) where
  peer : A
  mint : Option (Mint A)
  finEmitted : Bool := false
  kind : Option ExKind := none
  outbound : Bool
  deriving DecidableEq, Repr

/-- `StreamAction` without `Connect`, streams/mod.rs. streams/action.rs:81-101. -/
inductive Teardown where
  | shutdown | close | abort
  deriving DecidableEq, Repr

/-- `StreamAction`. streams/action.rs:81-101. -/
inductive XAction (A : Type) where
  | connect (x : Nat) (peer : A) (sid : Nat)
  | down (t : Teardown) (x : Nat)
  deriving DecidableEq, Repr

/-- The settings of the coordinator: the cluster label and whether inbound label checks are skipped
(`LabelOptions`, streams/label.rs), `accept_handshake_deadline` and `max_inbound_streams`
(endpoint/mod.rs:463, 904). -/
structure XCfg where
  label : Option Bytes
  skipLabel : Bool
  acceptDeadline : Nat
  maxInbound : Option Nat

/-- `MAX_MEM_INGRESS_DATAGRAMS`, streams/mod.rs. streams/mod.rs:115. -/
def MAX_INGRESS : Nat := 8192

/-- Insertion into an ordered set of exchange ids (`BTreeSet<ExchangeId>`), kept as an increasing list. Standard
library. -/
def idInsert (x : Nat) : List Nat → List Nat
  | [] => [x]
  | y :: ys => if x < y then x :: y :: ys else if x = y then y :: ys else y :: idInsert x ys

/-- `StreamEndpoint<I, A, R, G>`, streams/mod.rs:239-390. `tick` indexes the hash iteration orders.
`panicked` records that an `expect` of the code failed. `calls` is a history variable read by nothing: the
calls made to the endpoint, each with the exchange it was made for. -/
structure Coord (I A : Type) where
  ep : Ep I A
  cmp : CmpOptions
  ring : Option Keyring := none
  conns : Map Nat (Bridge I A) := []
  nextX : Nat := 0
  metas : Map Nat (XMeta A) := []
  out : List (Nat × A × Bytes) := []
  connects : List (Nat × A × Nat) := []
  teardowns : List (Teardown × Nat) := []
  ingress : List (A × Bytes) := []
  dials : List (Nat × A × Nat) := []
  kinds : Map Nat ExKind := []
  lastNow : Option Nat := none
  reapPending : Bool := false
  dirty : List Nat := []
  pumped : List Nat := []
  unminted : List Nat := []
  tick : Nat := 0
  panicked : Bool := false
  calls : List (Option Nat × Ep.Op I A) := []

namespace Coord
variable {I A : Type}

/-- `new`, streams/mod.rs:805-836. `cmp` stands for `CompressionOptions::new()`. `with_compression`,
streams/mod.rs:870-889, is `new` followed by `setCompression`. -/
def new (ep : Ep I A) (cmp : CmpOptions) : Coord I A := { ep, cmp }

/-- `exchange_has_pending_bytes`, streams/mod.rs:693-695. -/
def hasBytes (c : Coord I A) (x : Nat) : Bool := c.out.any (fun e => e.1 = x)

/-- `purge_transmit_for`, streams/mod.rs:718-720. -/
def purge (c : Coord I A) (x : Nat) : Coord I A := { c with out := c.out.filter (fun e => e.1 ≠ x) }

/-- `purge_pending_connect_for`, streams/mod.rs:742-747. -/
def purgeConnect (c : Coord I A) (x : Nat) : Coord I A :=
  { c with connects := c.connects.filter (fun e => e.1 ≠ x) }

/-- `pending_teardowns.push_back`. streams/mod.rs:1052-1061, 1758-1760. -/
def teardown (c : Coord I A) (t : Teardown) (x : Nat) : Coord I A :=
  { c with teardowns := c.teardowns ++ [(t, x)] }

/-- `cancel_exchange`, streams/mod.rs:767-789. -/
def cancel (c : Coord I A) (x : Nat) : Coord I A :=
  let c := { c with conns := c.conns.erase x, metas := c.metas.erase x }.purge x
  { c with teardowns := c.teardowns.filter (fun e => e.2 ≠ x) }.teardown .abort x

/-- `poll_transport_transmit`, streams/mod.rs:652-654. -/
def pollTransport (c : Coord I A) : Coord I A × Option (Nat × A × Bytes) :=
  match c.out with
  | [] => (c, none)
  | e :: rest => ({ c with out := rest }, some e)

/-- The teardown `poll_action` hands out: the first whose exchange has no bytes queued. streams/mod.rs:675-688.
-/
def takeTeardown (busy : Nat → Bool) :
    List (Teardown × Nat) → Option ((Teardown × Nat) × List (Teardown × Nat))
  | [] => none
  | e :: rest =>
    if busy e.2 then (takeTeardown busy rest).map (fun r => (r.1, e :: r.2)) else some (e, rest)

/-- `poll_action`, streams/mod.rs:675-688. -/
def pollAction (c : Coord I A) : Coord I A × Option (XAction A) :=
  match c.connects with
  | (x, peer, sid) :: rest => ({ c with connects := rest }, some (.connect x peer sid))
  | [] =>
    match takeTeardown c.hasBytes c.teardowns with
    | none => (c, none)
    | some ((t, x), rest) => ({ c with teardowns := rest }, some (.down t x))

/-- `poll_memberlist_ingress`, streams/mod.rs:752-754. -/
def pollIngress (c : Coord I A) : Coord I A × Option (A × Bytes) :=
  match c.ingress with
  | [] => (c, none)
  | e :: rest => ({ c with ingress := rest }, some e)

/-- `maybe_emit_shutdown`, streams/mod.rs:1774-1792. -/
def maybeShutdown (c : Coord I A) (x : Nat) (b : Bridge I A) : Coord I A :=
  if !b.finSent then c
  else
    match c.metas.get? x with
    | none => c
    | some m =>
      if m.finEmitted then c
      else { c with metas := c.metas.insert x { m with finEmitted := true } }.teardown .shutdown x

/-- `collect_bridge_transmits`, streams/mod.rs:1796-1807. -/
def collect (c : Coord I A) (x : Nat) (b : Bridge I A) : Coord I A × Bridge I A :=
  match c.metas.get? x with
  | none => (c, b)
  | some m =>
    if b.transmit.2 = [] then (c, b.transmit.1)
    else ({ c with out := c.out ++ [(x, m.peer, b.transmit.2)] }, b.transmit.1)

/-- `collect_transmits`, streams/mod.rs:1957-1964. -/
def collectTransmits (c : Coord I A) : Coord I A :=
  c.pumped.foldl (fun c x =>
    match c.conns.get? x with
    | none => c
    | some b => { (c.collect x b).1 with conns := (c.collect x b).1.conns.insert x (c.collect x b).2 })
    { c with pumped := [] }

/-- The dial requests among a list of events, in order. Model only, no counterpart in the code: the selection
made by `sieve_dial_events`, streams/mod.rs:1066. -/
def dialsOf : List (Event I A) → List (Nat × A × Nat)
  | [] => []
  | .dialRequested sid peer deadline :: rest => (sid, peer, deadline) :: dialsOf rest
  | _ :: rest => dialsOf rest

section
variable [DecidableEq I] [DecidableEq A] (cfg : Cfg I A) (env : Env I A) (X : XCfg) (T : TEnv)

/-- A call to the endpoint, made for exchange `x` (`none`: for none in particular). Model only, no counterpart
in the code: the field `ep` of the coordinator is used through `Ep.step`. -/
def callEp (c : Coord I A) (x : Option Nat) (op : Ep.Op I A) : Coord I A × Ep.Out I A :=
  ({ c with ep := (c.ep.step cfg env op).1, calls := c.calls ++ [(x, op)] }, (c.ep.step cfg env op).2)

/-- The endpoint after the calls a bridge made on it. Model only, no counterpart in the code: the calls a bridge
makes through its `&mut Endpoint`, streams/bridge.rs:1304 and 1411. -/
def absorb (c : Coord I A) (x : Nat) (ep : Ep I A) (log : List (Ep.Op I A)) : Coord I A :=
  { c with ep := ep, calls := c.calls ++ log.map (fun op => (some x, op)) }

/-- The `ExchangeCompleted` event of `reap_bridge`, streams/mod.rs:1709-1720, and of the retired dial,
streams/mod.rs:1896-1906. -/
def complete (c : Coord I A) (x : Nat) (m : Option (XMeta A)) (ok : Bool) : Coord I A :=
  match m with
  | none => c
  | some m =>
    match m.kind with
    | none => c
    | some kind => (c.callEp cfg env (some x) (.external (some ⟨x, m.peer, ok, kind⟩))).1

/-- `reap_bridge`, streams/mod.rs:1665-1761. -/
def reap (c : Coord I A) (x : Nat) (b : Bridge I A) : Coord I A :=
  let c := if b.isFailed then c.purge x else (c.collect x b).1
  let m := c.metas.get? x
  let c := { c with conns := c.conns.erase x, metas := c.metas.erase x }.complete cfg env x m (!b.isFailed)
  let c := match m.bind XMeta.mint with
    | some (.outbound sid) => (c.callEp cfg env (some x) (.dialFailed sid)).1
    | _ => c
  c.teardown (if b.isFailed then .abort else .close) x

/-- `drain_then_reap` followed by `reap_bridge`, streams/mod.rs:2238-2241, 2249-2252. -/
def drainReap (c : Coord I A) (x : Nat) (b : Bridge I A) (now : Nat) : Coord I A :=
  let r := b.drainThenReap cfg env T c.cmp c.ep now
  (c.absorb x r.1 r.2.2).reap cfg env x r.2.1

/-- One iteration of `pump_bridges`, streams/mod.rs:2213-2276. The code takes the bridge out of the map
while it works on it; nothing it calls looks at the map, so the model leaves it in. -/
def pumpOne (now : Nat) (c : Coord I A) (x : Nat) : Coord I A :=
  match c.conns.get? x with
  | none => c
  | some b =>
    let b := (b.replay env.CI env.CA T now).pumpOut T now
    if b.isTerminal then c.drainReap cfg env T x b now
    else
      let c := { c with panicked := c.panicked || (b.phase == Link.recvClosed && b.stream.isNone) }
      let r := b.drainPayloadOnly cfg env T c.cmp c.ep now
      let c := c.absorb x r.1 r.2.2
      let b := r.2.1
      if b.isTerminal then c.drainReap cfg env T x b now
      else
        let c := c.maybeShutdown x b
        { c with conns := c.conns.insert x b, pumped := idInsert x c.pumped }

/-- `pump_bridges`, streams/mod.rs:2207-2278. -/
def pump (c : Coord I A) (now : Nat) : Coord I A :=
  c.dirty.foldl (pumpOne cfg env T now) { c with dirty := [] }

/-- The bridge of exchange `x` receives its stream (`promote`, with its `expect`). streams/bridge.rs:476. -/
def promoteX (c : Coord I A) (x : Nat) (s : Stream I A) : Coord I A :=
  { c with conns := c.conns.modify x (fun b => b.promote s),
           panicked := c.panicked || s.pollTimeout.isNone }

/-- The retired dial of `service_handshake_completions`, streams/mod.rs:1849-1925. -/
def retireDial (c : Coord I A) (x : Nat) : Coord I A :=
  let c := (c.purge x).purgeConnect x
  let m := c.metas.get? x
  let c := { c with conns := c.conns.erase x, metas := c.metas.erase x }.complete cfg env x m false
  c.teardown .abort x

/-- One iteration of `service_handshake_completions`, streams/mod.rs:1825-1943. -/
def mintOne (now : Nat) (c : Coord I A) (x : Nat) : Coord I A :=
  match c.conns.get? x with
  | none => c
  | some b =>
    if b.isTerminal then c
    else if b.isHandshaking then { c with unminted := idInsert x c.unminted }
    else
      match c.metas.get? x with
      | none => { c with panicked := true }
      | some m =>
        match m.mint with
        | none => { c with panicked := true }
        | some mint =>
          let c := { c with metas := c.metas.insert x { m with mint := none }, dirty := idInsert x c.dirty }
          match mint with
          | .outbound sid =>
            match c.callEp cfg env (some x) (.dialSucceeded sid now) with
            | (c, .stream (some s)) => c.promoteX x s
            | (c, _) => c.retireDial cfg env x
          | .inbound peer =>
            match c.callEp cfg env (some x) (.acceptStream peer now) with
            | (c, .stream (some s)) => c.promoteX x s
            | (c, _) => c.cancel x

/-- `service_handshake_completions`, streams/mod.rs:1818-1944. -/
def mintAll (c : Coord I A) (now : Nat) : Coord I A :=
  c.unminted.foldl (mintOne cfg env now) { c with unminted := [] }

/-- One iteration of `service_dials`, streams/mod.rs:2063-2158. -/
def dialOne (now : Nat) (c : Coord I A) (d : Nat × A × Nat) : Coord I A :=
  let kind := c.kinds.get? d.1
  let c := { c with kinds := c.kinds.erase d.1 }
  if now ≥ d.2.2 then (c.callEp cfg env none (.dialFailed d.1)).1
  else
    let x := c.nextX
    { c with
      nextX := x + 1
      conns := c.conns.insert x
        (Bridge.new x (.newDialer X.label X.skipLabel) d.2.2 c.cmp c.ring cfg.maxStreamFrameSize)
      dirty := idInsert x c.dirty
      unminted := idInsert x c.unminted
      metas := c.metas.insert x
        { peer := d.2.1, mint := some (.outbound d.1), finEmitted := false, kind := kind, outbound := true }
      connects := c.connects ++ [(x, d.2.1, d.1)] }

/-- `service_dials`, streams/mod.rs:2047-2161, with `sieve_dial_events`. -/
def serviceDials (c : Coord I A) (now : Nat) : Coord I A :=
  if !c.ep.isRunning then c
  else
    let pending := c.dials ++ dialsOf c.ep.sieveDials.2
    let c := (c.callEp cfg env none .sieveDials).1
    pending.foldl (dialOne cfg env X now) { c with dials := [] }

/-- `flush_outbound`, streams/mod.rs:2297-2302. -/
def flush (c : Coord I A) (now : Nat) : Coord I A :=
  (((c.pump cfg env T now).mintAll cfg env now).pump cfg env T now).collectTransmits

/-- `run_tick`, streams/mod.rs:2512-2539. -/
def runTick (c : Coord I A) (now : Nat) : Coord I A :=
  let c := c.pump cfg env T now
  let c := (c.callEp cfg env none (.timeout now)).1
  let c := c.mintAll cfg env now
  let c := c.serviceDials cfg env X now
  let c := c.mintAll cfg env now
  let c := c.pump cfg env T now
  { c.collectTransmits with reapPending := false }

/-- `handle_transport_data`, streams/mod.rs:2324-2346. -/
def transportData (c : Coord I A) (x : Nat) (bytes : Bytes) (eof : Bool) (now : Nat) : Coord I A :=
  let c := { c with lastNow := some now }
  let feed := fun (b : Bridge I A) =>
    let b := if bytes = [] then b else b.feed env.CI env.CA T bytes now
    if eof then b.feed env.CI env.CA T [] now else b
  { c with conns := c.conns.modify x feed, dirty := idInsert x c.dirty }.runTick cfg env X T now

/-- `handle_dial_failed`, streams/mod.rs:2365-2372. -/
def dialFailedX (c : Coord I A) (x now : Nat) : Coord I A :=
  { c with lastNow := some now, conns := c.conns.modify x (fun b => b.fail .dialRetired),
           dirty := idInsert x c.dirty }.runTick cfg env X T now

/-- `handle_transport_error`, streams/mod.rs:2387-2394. -/
def transportError (c : Coord I A) (x now : Nat) : Coord I A :=
  { c with lastNow := some now, conns := c.conns.modify x (fun b => b.fail .connectionLost),
           dirty := idInsert x c.dirty }.runTick cfg env X T now

/-- `handle_timeout`, streams/mod.rs:2477-2481. -/
def timeout (c : Coord I A) (now : Nat) : Coord I A :=
  { c with lastNow := some now, dirty := c.conns.keys.foldl (fun d x => idInsert x d) c.dirty }.runTick
    cfg env X T now

/-- `accept_connection`, streams/mod.rs:1981-2039. -/
def accept (c : Coord I A) (src : A) (now : Nat) : Coord I A × Option Nat :=
  let c := { c with lastNow := some now }
  if !c.ep.isRunning then (c, none)
  else if X.maxInbound.any (fun max => max ≤ (c.metas.filter (fun e => !e.2.outbound)).length) then (c, none)
  else
    let x := c.nextX
    ({ c with
       nextX := x + 1
       conns := c.conns.insert x
         (Bridge.new x (.newAcceptor X.label X.skipLabel) (now + X.acceptDeadline) c.cmp c.ring
           cfg.maxStreamFrameSize)
       unminted := idInsert x c.unminted
       metas := c.metas.insert x
         { peer := src, mint := some (.inbound src), finEmitted := false, kind := none, outbound := false } },
      some x)

/-- The part the `start_*` calls share: the kind is stashed and the dial is serviced,
streams/mod.rs:2410-2415. -/
def launch (c : Coord I A) (sid : Nat) (kind : ExKind) (now : Nat) : Coord I A :=
  ({ c with kinds := c.kinds.insert sid kind }.serviceDials cfg env X now).flush cfg env T now

/-- `start_push_pull`, streams/mod.rs:2407-2417. -/
def startPushPull (c : Coord I A) (peer : A) (kind : PushPullKind) (now : Nat) : Coord I A × Nat :=
  let sid := (c.ep.startPushPull cfg env peer kind now).2
  let c := ({ c with lastNow := some now }.callEp cfg env none (.startPushPull peer kind now)).1
  (c.launch cfg env X T sid .pushPull now, sid)

/-- `start_reliable_ping`, streams/mod.rs:2427-2446. -/
def startReliablePing (c : Coord I A) (peerId : I) (peer : A) (seq deadline now : Nat) : Coord I A × Nat :=
  let sid := (c.ep.startReliablePing cfg env peerId peer seq deadline).2
  let c := ({ c with lastNow := some now }.callEp cfg env none
    (.startReliablePing peerId peer seq deadline)).1
  (c.launch cfg env X T sid .reliablePing now, sid)

/-- `start_user_message`, streams/mod.rs:2453-2468. -/
def startUserMessage (c : Coord I A) (peer : A) (payload : Bytes) (now : Nat) :
    Coord I A × Except EpErr Nat :=
  let res := (c.ep.startUserMessage cfg env peer payload now).2
  let c := ({ c with lastNow := some now }.callEp cfg env none (.startUserMessage peer payload now)).1
  match res with
  | .error e => (c, .error e)
  | .ok sid => (c.launch cfg env X T sid .userMessage now, .ok sid)

/-- `handle_gossip`, streams/mod.rs:1098-1119. -/
def gossip (c : Coord I A) (src : A) (datagram : Bytes) (now : Nat) : Coord I A :=
  let c := { c with lastNow := some now }
  if !c.ep.isRunning then c
  else if c.ingress.length ≥ MAX_INGRESS then c
  else { c with ingress := c.ingress ++ [(src, datagram)] }

/-- `leave_with`, streams/mod.rs:1519-1544. -/
def leave (c : Coord I A) (now : Nat) (farewell : Option Bytes) : Coord I A :=
  let c := { c with lastNow := some now, dials := [], kinds := [], connects := [], ingress := [] }
  let outbound := ((c.metas.filter (fun e => e.2.outbound)).map Prod.fst)
  let c := (T.order c.tick outbound).foldl (fun c x => if c.hasBytes x then c.cancel x else c)
    { c with tick := c.tick + 1 }
  (c.callEp cfg env none (.leave now farewell)).1

/-- One iteration of the second loop of `set_encryption_options`, streams/mod.rs:1284-1307. -/
def abortFailed (c : Coord I A) (x : Nat) : Coord I A :=
  ({ c with dirty := idInsert x c.dirty }.purge x |>.purgeConnect x).teardown .abort x

/-- `set_encryption_options`, streams/mod.rs:1262-1349, on a transport that is not secure. The first
loop visits every bridge; which are newly failed does not depend on its order. -/
def setEncryption (c : Coord I A) (ring : Option Keyring) : Coord I A :=
  if c.ring = ring then { c with ring := ring }
  else
    let failed := (c.conns.filter (fun e => !e.2.isFailed)).map Prod.fst
    let c := { c with conns := c.conns.map (fun (e : Nat × Bridge I A) => (e.1, e.2.setEncryption ring)) }
    let c := (T.order c.tick failed).foldl abortFailed { c with tick := c.tick + 1 }
    { c with reapPending := c.reapPending || !failed.isEmpty, out := [], ingress := [], ring := ring }

/-- `set_compression_options`, streams/mod.rs:1378-1393. -/
def setCompression (c : Coord I A) (cmp : CmpOptions) : Coord I A :=
  let c := ({ c with cmp := cmp }.callEp cfg env none .setResponseCompression).1
  { c with conns := c.conns.map (fun (e : Nat × Bridge I A) => (e.1, e.2.setCompression cmp)) }

/-- `poll_event`, streams/mod.rs:995-1011. The fuel is the number of queued events. -/
def pollEventLoop : Nat → Coord I A → Coord I A × Option (Event I A)
  | 0, c => (c, none)
  | fuel + 1, c =>
    let ev := c.ep.pollEvent.2
    let c := (c.callEp cfg env none .pollEvent).1
    match ev with
    | none => (c, none)
    | some (.dialRequested sid peer deadline) =>
      pollEventLoop fuel { c with dials := c.dials ++ [(sid, peer, deadline)] }
    | some ev => (c, some ev)

/-- `poll_event`, streams/mod.rs:995-1011. -/
def pollEvent (c : Coord I A) : Coord I A × Option (Event I A) :=
  pollEventLoop cfg env (c.ep.core.events.length + 1) c

/-- `requeue_event` of a dial request, streams/mod.rs:966-986. -/
def requeueDial (c : Coord I A) (sid : Nat) (peer : A) (deadline now : Nat) : Coord I A :=
  let c := { c with lastNow := some now }
  if !c.ep.isRunning then c else { c with dials := c.dials ++ [(sid, peer, deadline)] }

/-- `poll_timeout`, streams/mod.rs:1574-1600. -/
def pollTimeout (c : Coord I A) : Option Nat :=
  let best := c.conns.foldl (fun acc e => Ep.minOpt acc e.2.pollTimeout) c.ep.pollTimeout
  let best := c.dials.foldl (fun acc d => Ep.minOpt acc (some d.2.2)) best
  let best := if c.dials.isEmpty then best else Ep.minOpt best c.lastNow
  if c.reapPending then Ep.minOpt best c.lastNow else best

/-! ### Histories -/

/-- The calls the coordinator only passes on to the endpoint, streams/mod.rs:1026, 1395-1500, 2170-2200. -/
inductive Direct (I A : Type) where
  | packet (src : A) (msg : Message I A) (now : Nat)
  | ping (node : TNode I A) (now : Nat)
  | startProbe (now : Nat)
  | startScheduling (now : Nat)
  | updateMeta (metadata : Bytes)
  | queueUser (rank : Nat) (data : Bytes)
  | sendUserPacket (dst : A) (data : Bytes)
  | sendUserPackets (dst : A) (payloads : List Bytes)
  | setLocalState (bytes : Bytes)
  | setAckPayload (payload : Bytes)
  | pollTransmit

/-- The endpoint call, and the instant the coordinator remembers. The forwarding calls,
streams/mod.rs:1406-1525. -/
def Direct.op : Direct I A → Ep.Op I A × Option Nat
  | .packet src msg now => (.packet src msg now, none)
  | .ping node now => (.ping node now, some now)
  | .startProbe now => (.startProbe now, some now)
  | .startScheduling now => (.startScheduling now, none)
  | .updateMeta m => (.updateMeta m, none)
  | .queueUser rank data => (.queueUser rank data, none)
  | .sendUserPacket dst data => (.sendUserPacket dst data, none)
  | .sendUserPackets dst ps => (.sendUserPackets dst ps, none)
  | .setLocalState b => (.setLocalState b, none)
  | .setAckPayload b => (.setAckPayload b, none)
  | .pollTransmit => (.pollTransmit, none)

/-- Every call of the coordinator's interface that changes it. Model only, no counterpart in the code: it
gathers the public methods, streams/mod.rs:652-2480. -/
inductive XOp (I A : Type) where
  | data (x : Nat) (bytes : Bytes) (eof : Bool) (now : Nat)
  | dialFailed (x now : Nat)
  | transportError (x now : Nat)
  | accept (src : A) (now : Nat)
  | startPushPull (peer : A) (kind : PushPullKind) (now : Nat)
  | startReliablePing (peerId : I) (peer : A) (seq deadline now : Nat)
  | startUserMessage (peer : A) (payload : Bytes) (now : Nat)
  | timeout (now : Nat)
  | gossip (src : A) (datagram : Bytes) (now : Nat)
  | leave (now : Nat) (farewell : Option Bytes)
  | setEncryption (ring : Option Keyring)
  | setCompression (cmp : CmpOptions)
  | pollTransport
  | pollAction
  | pollIngress
  | pollEvent
  | requeueDial (sid : Nat) (peer : A) (deadline now : Nat)
  | direct (d : Direct I A)

/-- What a call returns. Model only, no counterpart in the code: it gathers the results of the public methods,
streams/mod.rs:652-2480. -/
inductive XOut (I A : Type) where
  | unit
  | bytes (r : Option (Nat × A × Bytes))
  | action (r : Option (XAction A))
  | datagram (r : Option (A × Bytes))
  | event (r : Option (Event I A))
  | accepted (r : Option Nat)
  | started (r : Except EpErr Nat)
  | endpoint (r : Ep.Out I A)

/-- One call: the new state and what the call returns. Model only, no counterpart in the code: it dispatches to
the modelled methods. -/
def step (c : Coord I A) : XOp I A → Coord I A × XOut I A
  | .data x bytes eof now => (c.transportData cfg env X T x bytes eof now, .unit)
  | .dialFailed x now => (c.dialFailedX cfg env X T x now, .unit)
  | .transportError x now => (c.transportError cfg env X T x now, .unit)
  | .accept src now => ((c.accept cfg X src now).1, .accepted (c.accept cfg X src now).2)
  | .startPushPull peer kind now =>
    ((c.startPushPull cfg env X T peer kind now).1, .started (.ok (c.startPushPull cfg env X T peer kind now).2))
  | .startReliablePing pid peer seq d now =>
    ((c.startReliablePing cfg env X T pid peer seq d now).1,
      .started (.ok (c.startReliablePing cfg env X T pid peer seq d now).2))
  | .startUserMessage peer payload now =>
    ((c.startUserMessage cfg env X T peer payload now).1,
      .started (c.startUserMessage cfg env X T peer payload now).2)
  | .timeout now => (c.timeout cfg env X T now, .unit)
  | .gossip src datagram now => (c.gossip src datagram now, .unit)
  | .leave now farewell => (c.leave cfg env T now farewell, .unit)
  | .setEncryption ring => (c.setEncryption T ring, .unit)
  | .setCompression cmp => (c.setCompression cfg env cmp, .unit)
  | .pollTransport => (c.pollTransport.1, .bytes c.pollTransport.2)
  | .pollAction => (c.pollAction.1, .action c.pollAction.2)
  | .pollIngress => (c.pollIngress.1, .datagram c.pollIngress.2)
  | .pollEvent => ((c.pollEvent cfg env).1, .event (c.pollEvent cfg env).2)
  | .requeueDial sid peer d now => (c.requeueDial sid peer d now, .unit)
  | .direct d =>
    let c := { c with lastNow := match d.op.2 with
                                 | some now => some now
                                 | none => c.lastNow }
    ((c.callEp cfg env none d.op.1).1, .endpoint (c.callEp cfg env none d.op.1).2)

/-- The state after a history. Model only, no counterpart in the code: a history of calls. -/
def run (c : Coord I A) (ops : List (XOp I A)) : Coord I A :=
  ops.foldl (fun c op => (c.step cfg env X T op).1) c

/-- What the calls of a history returned, in order. Model only, no counterpart in the code: a history of calls.
-/
def outs (c : Coord I A) : List (XOp I A) → List (XOut I A)
  | [] => []
  | op :: ops => (c.step cfg env X T op).2 :: outs (c.step cfg env X T op).1 ops
end

end Coord
end Verif
