/-!
How the reactor driver hands events to the application: `send_observation` and `flush_obs_overflow` of
memberlist-reactor/src/driver/stream/mod.rs:1339-1409 (the same in driver/quic/mod.rs:883-953) on the driver's task,
`observation_task` of memberlist-reactor/src/observation/mod.rs:60-101 on its own, and the event stream of
memberlist-reactor/src/events.rs.

The two tasks run in parallel, so that a step here is one operation on what they share: the channel, the counter of
payload bytes. A history is any sequence of steps. An event is opaque but for the payload it carries. The counter is
an integer, so that a subtraction ahead of its addition shows as a negative number; the code's `u64` would wrap.
Left out: `account_event`, and what happens when the observation task is gone, which it outlives only at teardown
(a panic in a hook of the application is caught). A channel of capacity 0, which flume makes a rendezvous, takes
nothing here.
-/

namespace Verif.Observe

/-- What is configured, memberlist-reactor/src/memberlist.rs:1214-1224: the capacity of the observation channel if it is
bounded, the budget of payload bytes, the capacity of the event stream. -/
structure Setup (E : Type) where
  cap : Option Nat
  budget : Option Nat
  streamCap : Nat
  /-- `observation_payload_bytes`, memberlist-driver/src/observation.rs:10-16: the bytes of a user message or of a
  remote state, nothing for any other event. -/
  payload : E → Option Nat

/-- `OBS_OVERFLOW_MAX`, driver/stream/mod.rs:133. -/
def overflowMax : Nat := 1024

/-- Where the driver is in `send_observation`. -/
inductive Sender (E : Type) where
  | idle
  /-- Past the budget check, before the reservation. -/
  | checked (e : E)
  /-- Past the reservation, before the attempt to send. -/
  | reserved (e : E)
  /-- The event is dropped, its reservation not yet rolled back. -/
  | refused (e : E)
deriving DecidableEq, Repr

/-- Where the observation task is. -/
inductive Observer (E : Type) where
  | idle
  /-- Received, before the release of its bytes. -/
  | took (e : E)
  /-- Released, before the hook. -/
  | released (e : E)
deriving DecidableEq, Repr

/-- The state of both tasks. `told`, `heard`, `lost`, `panics` and `taken` are history variables, which nothing
reads: events polled from the engine, those a hook was called with, those dropped, hooks that panicked, and events
taken by subscribers of the event stream. -/
structure State (E : Type) where
  chan : List E := []
  overflow : List E := []
  bytes : Int := 0
  dropped : Nat := 0
  sender : Sender E := .idle
  observer : Observer E := .idle
  stream : List E := []
  streamDropped : Nat := 0
  told : List E := []
  heard : List E := []
  lost : List E := []
  panics : Nat := 0
  taken : List E := []
deriving DecidableEq, Repr

/-- A step of one of the tasks. -/
inductive Op (E : Type) where
  /-- The driver polls an event and begins `send_observation`. -/
  | offer (e : E)
  /-- The driver goes on with `send_observation`. -/
  | send
  /-- One turn of the loop of `flush_obs_overflow`. -/
  | flush
  /-- The observation task receives. -/
  | recv
  /-- The observation task goes on; a hook may panic. -/
  | observe (panics : Bool)
  /-- A subscriber of the event stream takes an event. -/
  | take
deriving DecidableEq, Repr

variable {E : Type}

/-- Whether the channel has room for `try_send`. -/
def Setup.room (c : Setup E) (s : State E) : Bool :=
  match c.cap with
  | some n => decide (s.chan.length < n)
  | none => true

/-- The bytes an event weighs on the counter. -/
def Setup.weight (c : Setup E) (e : E) : Nat := (c.payload e).getD 0

/-- Whether an event is refused by the byte backstop, driver/stream/mod.rs:1368-1374. -/
def Setup.over (c : Setup E) (s : State E) (e : E) : Bool :=
  match c.budget, c.payload e with
  | some budget, some bytes => decide ((budget : Int) < s.bytes + bytes)
  | _, _ => false

/-- A step, cited at each case. Steps that are not due change nothing. -/
def State.step (c : Setup E) (s : State E) : Op E → State E
  -- driver/stream/mod.rs:1362-1378
  | .offer e =>
    match s.sender with
    | .idle =>
      if c.over s e then { s with told := s.told ++ [e], lost := s.lost ++ [e], dropped := s.dropped + 1 }
      else { s with told := s.told ++ [e], sender := .checked e }
    | _ => s
  | .send =>
    match s.sender with
    | .idle => s
    -- 1381-1383
    | .checked e => { s with bytes := s.bytes + c.weight e, sender := .reserved e }
    -- 1384-1400; the count of drops is raised here, in the code after the roll-back
    | .reserved e =>
      if c.room s then { s with chan := s.chan ++ [e], sender := .idle }
      else if (c.payload e).isSome && decide (s.overflow.length < overflowMax) then
        { s with overflow := s.overflow ++ [e], sender := .idle }
      else { s with sender := .refused e, lost := s.lost ++ [e], dropped := s.dropped + 1 }
    -- 1396-1398
    | .refused e => { s with bytes := s.bytes - c.weight e, sender := .idle }
  -- driver/stream/mod.rs:1341-1348
  | .flush =>
    match s.sender, s.overflow with
    | .idle, e :: es => if c.room s then { s with chan := s.chan ++ [e], overflow := es } else s
    | _, _ => s
  -- observation/mod.rs:70
  | .recv =>
    match s.observer, s.chan with
    | .idle, e :: es => { s with chan := es, observer := .took e }
    | _, _ => s
  | .observe p =>
    match s.observer with
    | .idle => s
    -- observation/mod.rs:73-76
    | .took e => { s with bytes := s.bytes - c.weight e, observer := .released e }
    -- observation/mod.rs:80-99
    | .released e =>
      let s := { s with observer := .idle, heard := s.heard ++ [e] }
      let s := if p then { s with dropped := s.dropped + 1, panics := s.panics + 1 } else s
      if (c.payload e).isSome then s
      else if s.stream.length < c.streamCap then { s with stream := s.stream ++ [e] }
      else { s with streamDropped := s.streamDropped + 1 }
  -- events.rs:49-51
  | .take =>
    match s.stream with
    | [] => s
    | e :: es => { s with stream := es, taken := s.taken ++ [e] }

/-- A history. -/
def State.runs (c : Setup E) (s : State E) : List (Op E) → State E
  | [] => s
  | op :: ops => (s.step c op).runs c ops

end Verif.Observe
