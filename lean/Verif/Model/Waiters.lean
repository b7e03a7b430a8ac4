import Verif.Model.Core

/-!
What the handle and the run loop of the embassy driver share: memberlist-embassy/src/shared/mod.rs. A handle's
`ping` and `send_reliable` (memberlist/mod.rs:606-620, 653-671) ask the engine for an id, register a waiter
under it without a suspension in between and wait for its signal; `drain_events` answers waiters from the
events it polls from the engine and keeps the events for the application.

The loop of `drain_events` is cut into its passes, one event each. An event is opaque but for what the loop
looks at. Waiters are named by a number, the identity of their reply signal. Not modelled: the wakes
`pump_wake` and `join_wake`, and the engine.
-/

namespace Verif.Embassy

/-- What `drain_events` reads off an event, shared/mod.rs:166-185: a ping that completed with a round-trip time
or failed; the completion of a user message, with the id of the send that the engine tells
(`last_completed_send`) and its outcome; anything else. -/
inductive Told where
  | pingCompleted (id rtt : Nat)
  | pingFailed (id : Nat)
  | sendDone (sid : Option Nat) (ok : Bool)
  | other
deriving DecidableEq, Repr

/-- The result a waiter is answered with: `Ok(rtt)`, `Ok(())` or an `OpError`. -/
inductive Answer where
  | rtt (n : Nat)
  | pingTimeout
  | sent
  | sendFailed
  | notRunning
deriving DecidableEq, Repr

/-- `Waiters` and `app_events` of `Shared`, shared/mod.rs:52-93: the waiters of pings and of sends, each an id
and the waiter registered under it. -/
structure Shared (E : Type) where
  pings : List (Nat × Nat)
  sends : List (Nat × Nat)
  events : List E
deriving DecidableEq, Repr

/-- `Shared::new`, shared/mod.rs:105-113. -/
def Shared.new (E : Type) : Shared E := ⟨[], [], []⟩

/-- `APP_EVENTS_CAP`, shared/mod.rs:98. -/
def appEventsCap : Nat := 1024

/-- `Vec::swap_remove`: the last element takes the place of the one removed. -/
def swapRemove {α : Type} (l : List α) (i : Nat) : List α :=
  match l.getLast? with
  | none => []
  | some z => (l.set i z).dropLast

/-- The search and removal of `resolve_ping` and `resolve_send`, shared/mod.rs:202-224: the first waiter with
the id, if there is one. -/
def resolve (l : List (Nat × Nat)) (id : Nat) : List (Nat × Nat) × Option Nat :=
  match l.findIdx? fun p => p.1 == id with
  | none => (l, none)
  | some i => (swapRemove l i, (l[i]?).map (·.2))

/-- What happens to the shared state. -/
inductive SOp (E : Type) where
  /-- A handle's `ping`: `register_ping`, shared/mod.rs:127-134. -/
  | ping (id waiter : Nat)
  /-- A handle's `send_reliable`: `register_send`, shared/mod.rs:138-145. -/
  | send (sid waiter : Nat)
  /-- One event drained, shared/mod.rs:159-195. -/
  | event (e : E) (told : Told)
  /-- A handle's `poll_event`: `pop_app_event`, shared/mod.rs:116-118. -/
  | poll
  /-- `fail_all_waiters`, shared/mod.rs:228-239. -/
  | stop
deriving DecidableEq, Repr

/-- What comes out: a waiter is answered, or the application is given an event. -/
inductive SOut (E : Type) where
  | answer (waiter : Nat) (a : Answer)
  | polled (e : E)
deriving DecidableEq, Repr

variable {E : Type}

/-- The answers to an event, shared/mod.rs:166-185. -/
def Shared.tell (s : Shared E) : Told → Shared E × List (SOut E)
  | .pingCompleted id rtt =>
    match resolve s.pings id with
    | (l, some w) => ({ s with pings := l }, [.answer w (.rtt rtt)])
    | (l, none) => ({ s with pings := l }, [])
  | .pingFailed id =>
    match resolve s.pings id with
    | (l, some w) => ({ s with pings := l }, [.answer w .pingTimeout])
    | (l, none) => ({ s with pings := l }, [])
  | .sendDone (some sid) ok =>
    match resolve s.sends sid with
    | (l, some w) => ({ s with sends := l }, [.answer w (if ok then .sent else .sendFailed)])
    | (l, none) => ({ s with sends := l }, [])
  | .sendDone none _ => (s, [])
  | .other => (s, [])

/-- An event is kept for the application; the oldest goes when there are too many, shared/mod.rs:190-194. -/
def Shared.keep (s : Shared E) (e : E) : Shared E :=
  { s with
    events := (if appEventsCap ≤ s.events.length then s.events.tail else s.events) ++ [e] }

/-- One step, shared/mod.rs:116-239. -/
def Shared.step (s : Shared E) : SOp E → Shared E × List (SOut E)
  | .ping id w => ({ s with pings := s.pings ++ [(id, w)] }, [])
  | .send sid w => ({ s with sends := s.sends ++ [(sid, w)] }, [])
  | .event e told => ((s.tell told).1.keep e, (s.tell told).2)
  | .poll =>
    match s.events with
    | [] => (s, [])
    | e :: es => ({ s with events := es }, [.polled e])
  | .stop =>
    ({ s with pings := [], sends := [] },
     s.pings.map (fun p => .answer p.2 .notRunning) ++ s.sends.map fun p => .answer p.2 .notRunning)

/-- A history. -/
def Shared.runs (s : Shared E) : List (SOp E) → Shared E × List (SOut E)
  | [] => (s, [])
  | op :: ops =>
    (((s.step op).1.runs ops).1, (s.step op).2 ++ ((s.step op).1.runs ops).2)

end Verif.Embassy
