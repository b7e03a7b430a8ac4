# Formal model of memberlist (Lean 4)

The subject is `al8n/memberlist` at the pinned commit in `/repo`. The core of
that project is the Sans-I/O crate `memberlist-proto`: pure state machines with
explicit time and explicit I/O queues. The model follows that crate function by
function; every definition cites file and lines.

## Layout

* `lean/Verif/Model/*.lean` - the model: executable, total Lean functions.
* `lean/Verif/Spec/*.lean` - small, independent specifications used in theorem
  statements.
* `lean/Verif/Proof/*.lean` - helper lemmas.
* `lean/Verif/Props/*.lean` - the property theorems, named `Cnn_...`, with the
  non-vacuity examples beside them.
* `lean/Verif/Example/*.lean` - a concrete configuration and node for the
  examples.
* `properties.jsonl` - the properties in English. `MANIFEST.json` - property to
  theorems. `AXIOMS.md` - axioms of every theorem (made by `tools/axioms.py`).
* `seeded/LOG.jsonl` - wrong programs tried against the theorems
  (`tools/seed.py`).

## Modelling conventions

* Bytes are `UInt8`, byte strings `List UInt8`. `u32`/`u64`/`usize` values are
  `Nat`; where wrap-around or truncation matters `% 2^32` is written out.
* Time: `Instant`/`Duration` are `Nat` nanoseconds since an origin. The code
  saturates at `Duration::MAX`; the model has no upper end of time.
* `&mut self` functions return the new state; events, transmissions and
  completion notifications are data in the state or in the result.
* Randomness (shuffles, insertion offsets, sampled peers) and the iteration
  order of hash maps are read from an explicit tape and an arbitrary
  permutation. Theorems quantify over both.
* Cryptography, digests and compression are structure parameters. The laws they
  must satisfy are structure fields or hypotheses. None of them is an axiom.
* The floating-point formulas (suspicion timeout, retransmit limit, push/pull
  interval) are parameters or exact real/natural formulas. `f64` rounding is
  not modelled. `C22_real_formula` proves that the exact formula meets the law
  assumed of the parameter.
* `node_id`, address and payload types are type parameters with a lawful codec.
* Panics and `Result::Err` are explicit values.

`Ep.step` in `Model/Endpoint.lean` is one public call on a node: a datagram, a
stream event, a timer service, an application call. `Reachable` states are those
that any finite sequence of such calls makes from a new node. Endpoint theorems
quantify over all reachable states, or over all runs.

`Model/Cluster.lean` puts any number of such nodes together. Each node is a
configuration, an environment and an `Ep`; what a node sends is encoded by the
model's codec and added to a set of bytes that is never emptied. A history is a
list of starts (also restarts), crashes and calls. `Spec.Possible` says what the
network may do: a node may be given an Alive, Suspect or Dead message or a remote
state only if some bytes sent before decode to it; pings, acks, user data, dial
results and timers are unrestricted. So loss, delay, repetition, reordering and
misdelivery are covered, forged membership claims are not. Metadata is at most
65535 bytes (`Meta` allows less) and a process queues fewer than 2^64 broadcasts.

`Model/Coord.lean` is the stream coordinator over plain TCP with the cluster label
and the reliable transforms: the endpoint, the exchanges and the queues the driver
drains. A history is any list of calls of its interface. The calls it makes to
the endpoint are kept in a history variable, with the exchange each was made for;
nothing in the model reads it.

`Model/Engine.lean` is the driving core of the embedded drivers: that coordinator,
a fixed set of sockets, and pumps. The network stack is any state with any
functions of the shape of `StreamIo`; between calls it may change to any other
state. Two history variables, which nothing in the model reads, keep what was done
with sockets (with the state of the stack at that moment) and the calls of the
coordinator. Loops that the stack could keep running are given fuel, and `cut`
tells that fuel ran out; theorems about a whole pump carry `cut = false`.

## Trusted base

* Lean 4.33.0's kernel. Axioms: at most `propext`, `Classical.choice` and
  `Quot.sound`; `AXIOMS.md` lists them for each theorem. No axiom of our own, no
  `sorry`, no `native_decide`, no `bv_decide`.
* Faithfulness of the model to the Rust text, by reading. Nothing here executes
  the Rust code.
* External crates, modelled by their documented contract: `buffa` (protobuf),
  `ipnet`, `rand`, the AEAD, digest and compression crates, `indexmap`-like
  containers of the standard library.

### Modelled (paths in `memberlist-proto/src`)

| code | model |
|------|-------|
| `framing` varints, tags, plain frame, compound | `Varint`, `Framing` |
| `framing` message codec, `bridge`, `codec`, `proto/*.proto` wire format | `Proto`, `Typed`, `DataCodecs` |
| `label`, label part of `codec`, `streams/label`, `streams/labeled` | `Label` |
| `framing` transforms, `checksum`, `compression`, `encryption`, their use on gossip and streams | `Transform`, `Keyring` |
| `convert`, `data/primitives` socket addresses | `Addr` |
| `cidr` | `Cidr` |
| `endpoint/deadline` | `Deadline` |
| `members` | `Members` |
| `broadcast` | `Broadcast`, `BroadcastRun` |
| `suspicion`, `awareness` | `Suspicion`, `SuspicionReal` |
| `stream` | `Stream` |
| `endpoint/mod.rs`, `endpoint/members`, `endpoint/probe.rs`, `event`, `error` | `Core` (membership), `Endpoint` (the rest) |
| `streams/bridge`, `streams/phase`, `streams/mod.rs` with the record layer `Labeled<Passthrough>` | `Bridge`, `Coord` |
| `tls/records`, `tls/mod.rs`, `streams/labeled` and `streams/bridge` at `Labeled<TlsRecords>`, over any `rustls` | `Tls` |
| `quic/conn`, `quic/demux`, `quic/deadline`, `route_datagram_event` of `quic/mod.rs`, over any `quinn_proto` | `QuicConn` |
| `quic/bridge`, the rest of `quic/mod.rs` | `QuicBridge`, `Quic` |
| `memberlist-embedded/src`: `engine`, `reliable`, `stream_io`, `gossip_io` | `Engine` |
| `memberlist-embassy/src`: `mailbox`, `stream_io`, `worker` (one slot of the socket pool) | `Embassy` |
| `memberlist-embassy/src/shared` (waiting calls, kept events) | `Waiters` |
| `memberlist-embassy/src/time`, `memberlist-smoltcp/src/addr` (instants), the deadline `poll` returns | `Clock` |
| `memberlist-reactor/src`: `observation`, `events`, the observation part of `driver/stream` and `driver/quic` | `Observe` |
| `memberlist-reactor/src/shared` (the command queue) | `Commands` |
| `memberlist-reactor/src/driver/stream`: `dispatch` of joins, sends and leaves, `account_event`, the drain on exit (`driver/quic` has the same `account_event`; its `dispatch` is not modelled) | `Pending` |
| `memberlist-compio/src/driver/stream`: `reap_pending_joins`, `reap_pending_leave`, the timer | `Sweep` |
| the snapshot of `memberlist-driver`, `snapshot_of` and `refresh_snapshot_if_changed` of the drivers | `Snapshot` |

### Not modelled

* `tls`: rustls itself is an arbitrary machine (`Rustls`), so handshakes,
  certificates and cryptography are outside; `tls/options` is left out. The
  record layer and the exchange on top of it are modelled, the coordinator that
  holds many exchanges is modelled over plain TCP only.
* `quic`: `quinn_proto` itself is an arbitrary set of functions (`Quinn`);
  `quic/crypto` and `requeue_event` are left out.
* The async drivers and runtimes (`memberlist`, `-driver`, `-reactor`,
  `-compio`, `-embassy`, `-smoltcp`): sockets, threads, executors. Of
  `memberlist-embedded` the engine is modelled, the configuration is not. Of
  `-embassy` a slot of the socket pool is modelled: its mailbox, the engine's
  view of it and its worker, over a socket that may answer anything; also the
  waiting calls and kept events. Of both embedded drivers, the clock.
  Of `-reactor`: the hand-over of events to the application, the command queue and
  the calls that wait. Of `-compio`: the end of joins and leaves out of time.
  Properties that live there would need a model of the operating system.
* Metrics, tracing, allocation, zero-copy sharing, builds with features turned
  off, failure of the entropy source.
* In `endpoint`: `age_member` (test support), the generic `requeue_event`,
  truncation of the member count to `u32`, `farewell_capacity`. Counters of type
  `u64` are unbounded.

## Properties

| id | what is modelled | how it is proved |
|----|------------------|------------------|
| C01 | LEB128 encoder and decoder | structural recursion on 7-bit groups |
| C02 | the same decoder | acceptance as an iff with a positional LEB128 specification |
| C03 | tag table, plain frame codec | whole tag table, then inversion of the decoder |
| C04 | compound codec | list induction; acceptance as an iff |
| C05 | protobuf wire codec and bridge for every message kind | field-list round trip, then per message |
| C06 | the same decoders | acceptance described field by field, independent of the parser's order |
| C07 | label header classifier, datagram entry | case analysis; acceptance as an iff |
| C08 | stream label gate | simulation between chunk lists and one-shot classification |
| C09 | transform unwrap loop over abstract primitives | relation of canonical nestings; loop accepts iff it holds |
| C10 | send pipeline and unwrap loop | composition of wrapper round trips |
| C11 | encrypted unwrap | inversion: an accepted frame was authenticated under a ring key |
| C12 | keyring operations | invariant over operation histories, refinement to a set with a primary |
| C13 | socket-address codecs | round trip and injectivity |
| C14 | CIDR policy | refinement to a list-of-networks specification |
| C15 | deadline heap | refinement to a key to deadline map |
| C16 | member vector and index | refinement to a map, over operation histories |
| C17 | gossip queue insertion | invariant over histories |
| C18 | queue drains, completion log | invariant with a ghost log of hand-outs and completions |
| C19 | the same drains | measure bound by induction over the drain |
| C20 | the same drains | greedy choice specification, preorder on transmissions |
| C21 | user broadcast tiers | composition of single-queue drains |
| C22 | suspicion timer | invariant over confirmation histories |
| C23 | health score | invariant over success and failure histories |
| C24 | stream machine and frame detector | simulation between chunkings |
| C25 | stream machine | phase invariant over input histories |
| C26 | stream machine | phase invariant with the deadline |
| C27 | stream buffer | size invariant |
| C28 | frame detector against frame decoder | prefix analysis; agreement as an iff |
| C29-C30 | membership core | invariant over all call sequences; event log replay |
| C31-C33 | claim processing | case analysis of one claim, lifted to every call |
| C34 | suspicion expiry | ghost history of the member's record |
| C35 | self records | invariant over all call sequences |
| C36-C38 | probes and pings | network-side invariant over all call sequences |
| C39, C52 | relayed and direct pings | the same invariant with the list of sends |
| C40, C54 | probe failure | penalty accounting over micro steps |
| C41 | timers | `poll_timeout` against the set of armed deadlines |
| C42 | leave | invariant of left nodes over all call sequences |
| C43 | packet sizes | size of each send through the frame codec |
| C44, C47-C49, C53, C55-C57 | claim processing | case analysis of one claim, lifted to every call |
| C45 | probe scheduler | potential argument over the probe list and its reshuffles |
| C46 | push/pull cache | version invariant |
| C50 | refused calls | per call, equality of states up to stated counters |
| C51 | dial intents and streams | invariant with ghost sets of issued ids |
| C58 | probe escalation | decomposition of one timer service into ends and starts |
| C59 | gossip round | decomposition of the timer service around the round; greedy drain |
| C60 | application broadcasts | provenance invariant over all call sequences |
| C61-C66 | a cluster of nodes and the bytes they sent | invariant over all histories: each claim held or sent has a cause in the history |
| C67 | stream coordinator, bridge, label gate, unwrap loop, stream machine | invariant over all histories: each open exchange tracks the whole bytes it was given |
| C68 | stream coordinator | refinement: the endpoint equals the run of the recorded calls |
| C69 | stream coordinator, bridge, stream machine | invariant over all histories, one exchange at a time: what was told, against the phase of the stream machine |
| C70 | stream coordinator | induction over the moves of one call; `C70_leave_unreported` is the exception |
| C71 | stream coordinator | invariant of the runs that start with leave |
| C72 | stream coordinator | invariants over the moves of one call |
| C73 | stream coordinator | each stream keeps the deadline of its bridge (`Paced`); a mint or a response moves the deadline only at an instant before it (moves carry the instant and what was serviced), and an exchange brings at most one payload (C69), so at most two stream timeouts are added. Without a label an accepted connection is minted by any servicing call even after its accept deadline: `C73_label_needed` is the witness |
| C74 | stream coordinator | invariant `Fine` over every call: exactly the exchanges without a stream are owed one (`Awaits`), and the shape of C67-C72 |
| C75 | stream coordinator, driver queues | invariant `VDrive` of the per-exchange view along every history: what was handed out plus what is queued is a half-close and then a close or aborts, and after the first teardown the queues and the bridge are silent |
| C76 | stream coordinator, bridges, label pipe | `Wire`: collected and waiting bytes of a bridge are the header and at most one unit; `Due`: what a stream has to say is one message, compressed at most once; `Whole`: an exchange reaped in order has everything on the wire or queued |
| C77 | embedded engine over any stack | invariant `Book` of the engine's moves: the places of the sockets count each handle as often as it was given |
| C78 | embedded engine, log of what it does with sockets | `Book`: the use each socket is in after the log agrees with its place; each act was warranted by the stack's answer |
| C79 | embedded engine, coordinator queues | invariant `Pipe` of the view of one exchange, on top of C75's `VDrive` |
| C80 | one pump | what the last steps of a pump leave behind (`Served`) |
| C81 | embedded engine | from C78's warrants, and each gossip call of the history traced to the move that made it |
| C82 | embedded engine | `wake` is a minimum; after a pump `Due` and `Drains` hold |
| C83 | embedded engine | partial: the id is told if the request for the connection reached the engine (`sids_owed`); false otherwise: `C83_lost` |
| C84 | embedded engine, coordinator ingress | each packet call traced back through the ingress queue to a gossip call (`hist_sourced`, `ingress_from`) |
| C85 | embedded engine, coordinator | `Pipe` and C75: an exchange the coordinator dropped has its close or abort queued or handed out |
| C86 | embedded engine, transforms | invariant `Closed` over the moves, with the keyrings a history configures |
| C87 | embedded engine | `run_seeds`: asked ++ waiting is conserved by every move and extended by `join` only |
| C88 | embedded engine, transforms | `run_mailed`: the list of packets with their fates grows by what each pump drains |
| C89 | embedded engine | `step_settings`: one fold over the calls; a member stays one until `leave` (`CoordStay`) |
| C90 | QUIC connections | invariant `TableInv`: the map of counts is the tally of the entries marked as counted, entries not established are marked, lengths under the caps |
| C91 | QUIC connections | the same invariant (routes lead to entries of that peer) and a case analysis of `get_or_dial` |
| C92 | demux, codec, transforms | the first byte through `encode_outgoing`, label, compression, checksum, encryption |
| C93 | QUIC timer index | mirror invariant of C15 over the filtered entries |
| C94 | QUIC node | every call is a sequence of small moves (`Proof/QuicMoves`, `QuicLift*`); invariant `RingInv` over the moves |
| C95 | QUIC node | invariant `BooksInv`: the backlog is the tally of the waiting user messages; `StartedCap` |
| C96 | QUIC node | invariants `IdsInv` (every exchange id in one place) and `HeldInv`, and `Fate` of each exchange over the moves |
| C97 | QUIC node | invariant `PlaceInv`: slots, buckets, stream ids and bridges agree |
| C98 | QUIC node | invariant `CountInv`: the counters are tallies of the bridges |
| C99 | QUIC node | `PlaceInv`, `HeldInv` |
| C100 | QUIC node | induction over the purged entries, ids distinct by `IdsInv` |
| C101 | QUIC node, bridge, stream machine | invariant over all moves of the node (`LifeInv`): what was told of an exchange, against the phase of its stream machine (`QLife`); an exchange let go of never comes back because ids are not reused (`IdsInv` with one more finished exchange) |
| C102 | QUIC node, endpoint | invariant over all moves of the node (`WireInv.ep`) |
| C103 | QUIC node, bridge, stream machine | invariant of a bridge (`Heard`, Proof/QuicFed) against its history variables `got` (what was read), `late`, carried through the moves of the node (`WireInv`, Proof/QuicAuth); `gone` keeps the bridges that ended |
| C104 | QUIC node, bridge | invariant of a bridge (`Wrote`, Proof/QuicWire) against its history variable `put` (what QUIC took), carried through the moves as for C103 |
| C105 | QUIC node, bridge, stream, endpoint | the invariant of C104 with a predicate of permitted answers (`Resp`, `Ans`): the commit of a payload brings the endpoint's answer, a chunk that ends a ping brings its acknowledgement (`Fed`, `Acks`) |
| C106 | QUIC node | invariants over the node's moves: every connection's and every unqueued exchange's entry in the deadline index is its own timeout (`Clock`, with the sets of entries that are out of date inside a call), every waiting dial's is its wake-up time (`DialInv`), a queued exchange is in the ready queue, and left-over work has an anchor (`Anchored`); together with the correctness of the index (C15) and C41 |
| C107 | QUIC node | every step of one exchange keeps its deadline and never un-ends it (`Timed`), the pump ends one whose deadline is over (`Near`), a tick visits every exchange (from the invariants of C94-C98) and every dial; a timer of the deadline index (C106) that is over makes the wake-up a tick |
| C108 | TLS record layer over an arbitrary rustls, with a ghost record of its calls | the plaintext held back equals what the record of calls says is owed (`Kept`), an invariant of every call; intake by induction on the bytes left; the drain by the measure of what is held back |
| C109 | one exchange over TLS (`TBridge`) under any sequence of the coordinator's calls | every TLS exchange is read as a TCP exchange that was fed the plaintext rustls surfaced (`TBridge.plain`); the TCP invariant (`Bridge.BInv`) is carried along each call, with the part of the plaintext that was used as its wire (`TInv`), then induction on the calls |
| C110 | one exchange over TLS (`TBridge`) under any sequence of the coordinator's calls | the TLS exchange read as a TCP exchange (`TBridge.plain`) keeps the TCP invariants of what was said (`Wire`, `BLife`, `Said`); the record of calls to rustls is free of drops and of early closes (`Tidy`), so what was handed over and what waits is what was accepted |
| C111 | the same | `Flow`: what rustls disposed of and what is retained is what was delivered; rustls takes more, or has plaintext to fetch, before every round; the loops lose nothing by their fuel |
| C112 | one slot of the embassy driver (`Slot`): the engine's calls and the worker's steps from await to await, in any order, over any socket | what was handed over and what the mailbox holds is what was received since the connection began (`Holds`), where the worker stands agrees with the mailbox (`Stands`), nothing is read behind the end (`Ends`): invariants of every step. False for bytes not yet taken when the peer resets: `C112_lost` |
| C113 | the same | `Holds`: what was transmitted and what the mailbox holds is what was accepted |
| C114 | the same | a worker that waits with something wanted of it has its wake set (`Awake`); a command to open waits for a free worker until it is carried out (`Due`) |
| C115 | the same | `Stands`: a slot ready for reuse is quiet, the rings keep to their capacities |
| C116 | the same | partial: a rank of the worker's position decreases at every step once an abort is pending (`Going`), unless a handshake completes; false then: `C116_lost` |
| C117 | the tables of waiting calls (`Shared`), under any history of calls, drained events and a stop | ids in the tables are distinct, and waiters there and still to come (`Good`); the removal that moves the last entry permutes the rest; induction over what follows the call |
| C118 | the queue of events kept for the application (`Shared`) | a step keeps the account of told, kept and polled events or drops the oldest for lack of room |
| C119 | the conversions of instants of both embedded drivers and the fold of deadlines (`Clock`) | arithmetic of rounded division, for every rate of the clock |
| C120 | both tasks between the engine and the application's hooks (`Observe`), a step per operation on what they share | invariants: the counter is the bytes queued and reserved (`Accounts`), keeps to the budget with what is about to be reserved (`Within`), every event is somewhere (`Traced`) |
| C121 | the same | `Traced`; only events with payload wait to be retried. False of application data: `C121_overtaken_witness` |
| C122 | the command queue under its lock (`Commands`) | induction over histories |
| C123 | the tables of waiting joins, sends and leaves of the reactor driver (`Pending`), under any history of commands and events | one waiting call is followed through the history (`Alone`: no other has its caller or its exchanges); what it hears is a function of the events alone (`joinNews`, `sendNews`), read off the finished exchanges |
| C124 | the sweep of the compio driver with its `swap_remove` loop, and the fold of deadlines into its timer (`Sweep`) | functional induction on the loop: what lies before the index is not due, and a removal permutes the rest |
| C125 | the snapshot, the published cell and its version (`Snapshot`) | for every act of the engine: an equal version means an equal table, up to order, and an equal health; induction over histories of calls and republications |

Each property but C83 and C116 is proved in full for the model. Where a claim a user could expect
is false of the code, the theorem states what does hold, and a `_witness`
theorem shows the concrete case.

## Findings

Behaviour of the code that the proofs brought out:

* Incarnation numbers wrap at `u32::MAX`; a refutation there goes to a number
  that other nodes treat as old (`C33_wrap`).
* With `suspicion_max_timeout_mult = 0` a suspicion can expire in the past
  (`C34_zero_mult_witness`).
* Suspicion minimum is floored to milliseconds; it can be undercut by less than
  1 ms (`C22_sub_ms_witness`).
* Two services at the same instant can do different work, since a suspicion
  started by the first may be due at once (`C41_same_instant_witness`).
* A push/pull list that names one node twice can revive and replace it in one
  call (statement of `C31_monotone`).
* Keyring lookup compares key bytes only; keys of different algorithms with the
  same bytes collide (`C12_collision_witness`).
* A stream may report `Closed` and later `Failed`
  (`C25_closed_then_failed_witness`); polling a stream early can lose the
  message of a chunk that also carries an error (`C24_early_collection_witness`).
* A relayed ack repeats the peer's payload and may exceed the MTU
  (`C43_relayed_witness`). The MTU bounds the bytes before label and encryption.
* A member is probed within `2n - 1` rounds, not `n`, since the list is
  reshuffled between passes (`C45_short_window_witness`); calling `reset_nodes`
  often can starve a member.
* A ping that is refused late in the call still consumes a sequence number.
* `allocate_seq` would loop for ever if all 2^32 numbers were in flight
  (`C38_exists` covers every smaller number).
* Push/pull answers are as of the last timer service, by design (`C46_served`).
* A ping outstanding when the node leaves gets no outcome. `reset_nodes` and
  draining of broadcasts still work after leave.
* A protobuf `Unknown(n)` enum value with a named discriminant does not survive
  the wire; a 64-bit varint in a `uint32` field is truncated.
* Messages whose encoding exceeds `u32` hit an `expect`; the model gives them
  length `usize::MAX`.

* Agreement within an incarnation needs that a node is not restarted with the
  same incarnation and other metadata (`C63_restart_witness`).

* `leave` drops a dialled exchange whose request was not handed out yet and
  reports no completion (`C70_leave_unreported`).
* A started exchange whose dial fails or expires before a connection exists
  gets no completion report either.
* `start_push_pull` and the like after `leave` add to the coordinator's table
  of pending kinds, and nothing removes the entry.
* After `leave`, an exchange whose answer arrives is reported as succeeded
  although the endpoint ignores the answer.
* A change of keys between a reliable send and the next pump drops the request
  for its connection; the completion of the send is then told without its id, so
  that a task waiting for that send is not woken (`C83_lost`).
* `set_encryption_options` followed by a reap yields two `Abort` actions for one
  exchange.
* QUIC: a dial the node makes for itself (a probe's reliable ping, a periodic
  push/pull) is counted among the inbound bridges, so that it takes room from
  `max_inbound_bridges`.
* QUIC: a reliable ping whose dial fails is not reported as completed, one whose
  stream fails is; one started after `leave` takes an id and is never reported.
* QUIC: a dial request whose intent is gone is entered as a user message and
  counted so until it is retired.
* QUIC: between calls no dial waits to be tried, so that the branch of
  `poll_event` for dial requests is reached only after `requeue_event`.
* Over QUIC `leave` reports the dials it drops, over streams it does not
  (`C100_leave`, `C70_leave_unreported`).
* Over TLS a failing exchange hands what is staged to rustls before it drops it:
  `retire_halves` asks for the close, which flushes the staged plaintext, and
  only then `fail` clears it. A unit whose payload is refused for its size
  leaves its length behind in rustls (`C110_refused_witness`), although the
  comments at `clear_outbound` (tls/mod.rs:118-124) and at the refused write
  (streams/bridge.rs:826-832) say that it cannot. On the wire this is
  prevented only by the coordinator, which does not drain a failed bridge.
* Embassy driver: an abort posted in the turn in which a handshake completes is
  overwritten by the worker (worker.rs:103-115, 155-165 set the command to idle;
  `select` prefers the socket). The engine has dropped the connection and put the
  slot back, but the slot never becomes ready for reuse: it is lost to the pool
  (`C116_lost`).
* Embassy driver: bytes received before a reset and not yet taken by the engine
  are cleared with the mailbox, although the comment at worker.rs:411-423 says
  that they still drain (`C112_lost`).
* Embassy driver: a worker that sees the peer's end before the engine has taken
  the last bytes waits for a wake that taking them does not give, so that a
  gracefully closed slot stays open until the close timeout (`C116_delay`).
* Embassy driver: waiting calls are failed only by `fail_all_waiters`, which is
  called after a join that never ends (runner.rs:120-129). If the run future is
  dropped, calls that wait are never answered; in C117 the operation `stop` is
  what the function does, not something that happens.
* Reactor driver: application data that found the observation channel full waits
  in `obs_overflow`; `send_observation` does not look whether something waits
  there, so that a later message overtakes it when the channel has room in
  between (`C121_overtaken_witness`).
* Snapshot of the drivers: `local_ref` is the record last announced, without the
  current liveness the members list is stamped with, so after a leave it still
  says alive while `by_id` of the same node says left (`C125_local_witness`).

## Hypotheses that theorems carry

* C112-C116: the engine listens and dials only on a slot that is ready for reuse
  and sends only where it may (`Slot.allows`, which cites the engine).
* C119: the clock's reading fits 64 bits in ticks and in microseconds, and the
  products inside `embassy_time` do not overflow.
* C117: `Distinct`: no ping begins under an id under which another still waits, and
  no send (ping ids are 32-bit sequence numbers that wrap, send ids a counter of 64
  bits); every call waits on a signal of its own.

* C94-C107: `Quinn.Sound`, of the QUIC library: only a closed connection is
  drained, a closed one opens no stream, and only an event or a timeout drains.
* C111: `Spec.Receives`, of rustls: it refuses ciphertext only for lack of room for
  plaintext. `hserved`: no ciphertext comes between the end of the handshake and
  the installation of the stream; otherwise it would overtake what is retained
  (`C111_served_witness`). `run_tick` does both in one call.
* C103: no bridge is `late`: QUIC handed out no bytes of a stream the node had
  told it to stop before (the caller contract of `fail_stopped_already_retired`).
* C106 (left over, flush): the node is not `capped`: `service_slot_freed_peers` did
  not reach its bound on rounds, which the code asserts with `debug_assert`.
* C10 and C12 with several keys: `NoCrossKey`, a ciphertext under one key does
  not authenticate under another.
* C17-C20: fewer than 2^64 broadcasts (the id counter does not wrap).
* C34: time arguments of the calls in a history do not run backwards.
* C41: positive probe and stream timeouts. C107: a positive stream timeout.
* C62 (current), C63, C66: the node was started once in the history and its
  incarnation counter stayed below `u32::MAX`.

## Wrong programs

`seeded/LOG.jsonl` records edits of the model, made in a scratch copy, with the
theorems that then failed. Edits that all theorems survived led to stronger
statements; the field `tightened` names them.
