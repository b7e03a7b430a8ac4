import Verif.Model.Broadcast
/-
Histories of calls on one retransmit queue, with logs of what the caller observes.
Every call is a public method of `BroadcastQueue`, /repo/memberlist-proto/src/broadcast/mod.rs:143-492.
-/
namespace Verif

/-- One call on a queue. Model only, no counterpart in the code: it gathers the methods of
`TransmitLimitedQueue`, broadcast/mod.rs:138-500. -/
inductive QOp (B : Type) where
  /-- `queue_broadcast`, broadcast/mod.rs:232. -/
  | queue (b : B)
  /-- `take_broadcasts_measured`, broadcast/mod.rs:320. -/
  | take (numNodes overhead limit : Nat)
  /-- `take_one_broadcast`, broadcast/mod.rs:410. -/
  | takeOne (numNodes limit : Nat)
  /-- `prune`, broadcast/mod.rs:480. -/
  | prune (maxRetain : Nat)
  /-- `reset`, broadcast/mod.rs:464. -/
  | reset

/-- A queue together with the log of everything it has handed out and every completion notification it has
fired. Model only, no counterpart in the code: the queue with history variables. -/
structure QRun (Id B : Type) where
  s : BQueue Id B
  handed : List (LB B)
  finished : List (LB B)

namespace QRun
variable {Id B Msg : Type} [DecidableEq Id]

/-- Performs one call and logs its effects. Model only, no counterpart in the code: it dispatches to the
modelled methods. -/
def step (ops : BroadcastOps Id B Msg) (r : QRun Id B) : QOp B → QRun Id B
  | .queue b =>
    let o := r.s.queueBroadcast ops b
    { s := o.1, handed := r.handed, finished := r.finished ++ o.2 }
  | .take n overhead limit =>
    let d := r.s.takeMeasured ops n overhead limit
    { s := d.s, handed := r.handed ++ d.sent, finished := r.finished ++ d.finished }
  | .takeOne n limit =>
    let d := r.s.takeOne ops n limit
    { s := d.s, handed := r.handed ++ d.sent, finished := r.finished ++ d.finished }
  | .prune k =>
    let o := r.s.prune ops k
    { s := o.1, handed := r.handed, finished := r.finished ++ o.2 }
  | .reset =>
    let o := r.s.reset
    { s := o.1, handed := r.handed, finished := r.finished ++ o.2 }

/-- A fresh queue, `BroadcastQueue::new` (broadcast/mod.rs:145). -/
def start (mult : Nat) : QRun Id B := { s := .new mult, handed := [], finished := [] }

/-- Runs a history from a fresh queue. Model only, no counterpart in the code: a history of calls. -/
def run (ops : BroadcastOps Id B Msg) (mult : Nat) (h : List (QOp B)) : QRun Id B :=
  h.foldl (step ops) (start mult)

end QRun

/-- The broadcasts queued by a history, in order; number `t` of this list is broadcast `t`. Model only, no
counterpart in the code: read off a history. -/
def QOp.queued {B : Type} (h : List (QOp B)) : List B :=
  h.filterMap (fun | .queue b => some b | _ => none)

/-- The cluster sizes the drains of a history were called with. Model only, no counterpart in the code: read off
a history. -/
def QOp.sizes {B : Type} (h : List (QOp B)) : List Nat :=
  h.filterMap (fun | .take n _ _ => some n | .takeOne n _ => some n | _ => none)

end Verif
