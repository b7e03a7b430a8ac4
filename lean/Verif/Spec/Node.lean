import Verif.Spec.Probe
/-
Specification vocabulary for what the node as a whole does: push/pull states, timers, leaving.
-/
namespace Verif.Spec
open Verif Ep
variable {I A : Type} [DecidableEq I] [DecidableEq A]

/-- A push/pull state describes the node: it has exactly one entry for each member and none for any other id, the entry
carries the member's address, metadata, incarnation, state and versions, and the application data is the node's
snapshot. -/
def Describes (pp : PushPull I A) (e : Ep I A) : Prop :=
  (∀ id, pp.states.filter (fun s => s.id = id) =
    match member e id with
    | none => []
    | some m => [{ id := id, addr := m.server.addr, metadata := m.server.metadata, incarnation := m.incarnation
                   state := m.state, pv := m.server.pv, dv := m.server.dv }]) ∧
  pp.userData = e.localState

/-- The node answers the call with this push/pull state. -/
def Serves (o : Out I A) (pp : PushPull I A) : Prop := o = .command (some (.sendResponse pp))

/-! ### Timers -/

/-- A point in time at which a running node has something to do: a suspicion runs out, a probe or ping fails, a probe that
got no direct answer turns to relays, a relayed ping is given up, a dial is given up, or one of the three schedules is
due. -/
inductive Due (cfg : Cfg I A) (e : Ep I A) : Nat → Prop
  | suspicion (id : I) (m : Member I A) (s : Suspicion I) : member e id = some m → m.susp = some s → Due cfg e s.deadline
  | probe (seq : Nat) (p : Probe I A) : pending e seq = some p → Due cfg e p.failureDeadline
  | direct (seq : Nat) (p : Probe I A) (d : Nat) : pending e seq = some p → p.phase = .direct d →
      Due cfg e (p.sentAt + cfg.probeTimeout)
  | relay (seq : Nat) (f : Forward A) : relaying e seq = some f → Due cfg e f.deadline
  | dial (id : Nat) (i : Intent A) : e.net.intents.get? id = some i → Due cfg e i.deadline
  | nextProbe (t : Nat) : e.nextProbe = some t → Due cfg e t
  | nextGossip (t : Nat) : e.nextGossip = some t → Due cfg e t
  | nextPushPull (t : Nat) : e.nextPushPull = some t → Due cfg e t

/-! ### Leaving -/

/-- The datagrams handed to the transport during a history, in order. -/
def sent (cfg : Cfg I A) (env : Env I A) (e : Ep I A) (ops : List (Op I A)) : List (Transmit I A) :=
  (Ep.outs cfg env e ops).filterMap (fun o => match o with
    | .transmit t => t
    | _ => none)

/-- Where a datagram goes. -/
def dest : Transmit I A → A
  | .packet dst _ => dst
  | .compound dst _ => dst

/-- The messages in a datagram. -/
def contents : Transmit I A → List (Message I A)
  | .packet _ m => [m]
  | .compound _ ms => ms

/-- The application payloads waiting to be gossiped. -/
def queuedData (e : Ep I A) : List Bytes := e.user.tiers.flatMap (fun t => t.q.map (fun x => x.broadcast))

/-- The report that leaving is complete. -/
def isLeftCluster : Event I A → Bool
  | .leftCluster => true
  | _ => false

/-- How often an observer who takes over the node in state `e` and makes the calls `ops` sees the report that leaving is
complete. -/
def leftReports (cfg : Cfg I A) (env : Env I A) (e : Ep I A) (ops : List (Op I A)) : Nat :=
  (reported cfg env e ops).countP isLeftCluster

/-- The call gives the caller something to put on the network: a datagram, a stream, a dial request, a push/pull answer,
or the report that a probe or ping was sent. -/
def Engages : Out I A → Prop
  | .transmit t => t.isSome
  | .stream s => s.isSome
  | .dials l => l ≠ []
  | .command c => ∃ pp, c = some (.sendResponse pp)
  | .dial _ d => d.isSome
  | .event ev => ∃ id peer d, ev = some (.dialRequested id peer d)
  | .pingId r => ∃ seq, r = .ok seq
  | .streamIdResult r => ∃ id, r = .ok id
  | .dialResult r => ∃ d, r = .ok d
  | .bool b => b = true
  | _ => False

/-! ### Streams -/

/-- The stream the node wants opened under an id: to whom, for what purpose, until when, and the bytes to send first. -/
def waiting (e : Ep I A) (id : Nat) : Option (Intent A) := e.net.intents.get? id

/-- The stream id a call gives out: of the stream it accepts, or of the stream it asks to be opened. -/
def issuedBy : Op I A → Out I A → List Nat
  | .acceptStream _ _, .stream (some s) => [s.id]
  | _, .streamId id => [id]
  | _, .dial id _ => [id]
  | _, .streamIdResult (.ok id) => [id]
  | _, .dialResult (.ok (id, _)) => [id]
  | _, _ => []

/-- The ids under which calls opened or accepted streams during a history, in order. -/
def issuedIds (cfg : Cfg I A) (env : Env I A) (e : Ep I A) : List (Op I A) → List Nat
  | [] => []
  | op :: ops => issuedBy op (e.step cfg env op).2 ++ issuedIds cfg env (e.step cfg env op).1 ops

/-- The ids of the streams handed to the caller during a history, accepted ones and connected ones, in order. -/
def streamIds (cfg : Cfg I A) (env : Env I A) (e : Ep I A) (ops : List (Op I A)) : List Nat :=
  (Ep.outs cfg env e ops).filterMap (fun o => match o with
    | .stream (some s) => some s.id
    | _ => none)

/-- The dial request an event carries: stream id, peer, deadline. -/
def dialOf : Event I A → Option (Nat × A × Nat)
  | .dialRequested id peer d => some (id, peer, d)
  | _ => none

/-- The dial requests a call hands to the caller. -/
def dialsIn : Out I A → List (Nat × A × Nat)
  | .event (some ev) => (dialOf ev).toList
  | .dials l => l.filterMap dialOf
  | .dial _ (some d) => [(d.stream, d.peer, d.deadline)]
  | .dialResult (.ok (_, d)) => [(d.stream, d.peer, d.deadline)]
  | _ => []

/-- The dial requests handed to the caller during a history, in order. -/
def requestedDials (cfg : Cfg I A) (env : Env I A) (e : Ep I A) (ops : List (Op I A)) : List (Nat × A × Nat) :=
  (Ep.outs cfg env e ops).flatMap dialsIn

end Verif.Spec
