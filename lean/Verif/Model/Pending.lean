/-!
The calls that wait at the reactor driver for what they started to finish: joins, reliable sends and leaves. The
`Join` (with `wait`), `Leave` and `SendReliable` arms of `dispatch`, `account_event`, and the drain on exit of
memberlist-reactor/src/driver/stream/mod.rs:668-800, 827-917, 1048-1145, 1639-1660.

Simplified: the exchanges a command started are given with the command (the driver reads them off the `Connect`
actions of the streams it started, by their `StreamId`); a `HashSet` of exchanges is a list; `pending_joins` is a list
in order of arrival where the code has a `HashMap` in no order, and a finished send is taken out of `pending_user_sends`
in place where the code has `swap_remove`. Neither order shows as long as no two calls hold the same exchange.
Pings are not here (they are as in the embassy driver, `Model/Waiters.lean`).
-/

namespace Verif.Pending

/-- `PendingJoin` and `PendingUserSend`, driver/stream/mod.rs:236-275: the exchanges not yet heard of, what is known of
the others, and the caller. -/
structure Batch (N : Type) where
  eids : List Nat
  note : N
  caller : Nat
deriving DecidableEq, Repr

/-- What is known of a join: `contacted` and `requested`. -/
structure JoinNote (A : Type) where
  contacted : List A
  requested : Nat
deriving DecidableEq, Repr

/-- The answer a caller gets. `shutdown` carries the peers a join had reached. -/
inductive Answer (A : Type) where
  | joined (contacted : List A)
  | joinFailed (requested : Nat)
  | sent
  | sendFailed
  | left
  | leaveFailed
  | notRunning
  | shutdown (contacted : List A)
deriving DecidableEq, Repr

/-- What happens at the driver: the three commands, the four events and the exit. -/
inductive Op (A : Type) where
  | join (caller requested : Nat) (running : Bool) (eids : List Nat)
  | send (caller payloads : Nat) (running : Bool) (eids : List Nat)
  | leave (caller : Nat) (running ok : Bool)
  | pushPull (eid : Nat) (peer : A) (ok : Bool)
  | userMessage (eid : Nat) (ok : Bool)
  | left
  | stop
deriving DecidableEq, Repr

/-- The fields of `StreamDriver` behind it, driver/stream/mod.rs:441-450. `pending_leave` is `None` where `leavers` is
empty. -/
structure Driver (A : Type) where
  joins : List (Batch (JoinNote A)) := []
  sends : List (Batch Nat) := []
  leavers : List Nat := []
  stopped : Bool := false
deriving DecidableEq, Repr

variable {A N : Type}

/-- The removal of a finished exchange from the first call that holds it, the change to what that call knows, and the
call itself once it holds none: driver/stream/mod.rs:1061-1078, 1118-1129. -/
def settle (f : N → N) (eid : Nat) : List (Batch N) → List (Batch N) × Option (Batch N)
  | [] => ([], none)
  | b :: bs =>
    if eid ∈ b.eids then
      let b' : Batch N := { b with eids := b.eids.filter (· ≠ eid), note := f b.note }
      if b'.eids = [] then (bs, some b') else (b' :: bs, none)
    else
      let r := settle f eid bs
      (b :: r.1, r.2)

/-- `join_reply`, memberlist-reactor/src/driver/mod.rs:22-34. -/
def joinReply (n : JoinNote A) : Answer A :=
  if n.contacted = [] then .joinFailed n.requested else .joined n.contacted

/-- The reply to a send whose exchanges are all finished, driver/stream/mod.rs:1130-1134. -/
def sendReply (failed : Nat) : Answer A := if failed > 0 then .sendFailed else .sent

/-- One step. -/
def Driver.step (d : Driver A) : Op A → Driver A × List (Nat × Answer A)
  -- the `Join` arm with `wait`, driver/stream/mod.rs:668-749; after the exit, the refusal of what was queued, 1570-1638
  | .join c requested running eids =>
    if d.stopped then (d, [(c, .shutdown [])])
    else if !running then (d, [(c, .notRunning)])
    else if requested = 0 then (d, [(c, .joined [])])
    else if eids = [] then (d, [(c, .joinFailed requested)])
    else ({ d with joins := d.joins ++ [⟨eids, ⟨[], requested⟩, c⟩] }, [])
  -- the `SendReliable` arm, driver/stream/mod.rs:827-917
  | .send c payloads running eids =>
    if d.stopped then (d, [(c, .shutdown [])])
    else if !running then (d, [(c, .notRunning)])
    else if payloads = 0 then (d, [(c, .sent)])
    else if eids = [] then (d, [(c, .sendFailed)])
    else if payloads < eids.length then (d, [(c, .sendFailed)])
    else ({ d with sends := d.sends ++ [⟨eids, payloads - eids.length, c⟩] }, [])
  -- the `Leave` arm, driver/stream/mod.rs:751-785
  | .leave c running ok =>
    if d.stopped then (d, [(c, .shutdown [])])
    else if d.leavers ≠ [] then ({ d with leavers := d.leavers ++ [c] }, [])
    else if ok && running then ({ d with leavers := [c] }, [])
    else (d, [(c, if ok then .left else .leaveFailed)])
  -- driver/stream/mod.rs:1055-1084
  | .pushPull eid peer ok =>
    let r := settle (fun n => if ok then { n with contacted := n.contacted ++ [peer] } else n) eid d.joins
    ({ d with joins := r.1 }, r.2.toList.map fun b => (b.caller, joinReply b.note))
  -- driver/stream/mod.rs:1114-1139
  | .userMessage eid ok =>
    let r := settle (fun n => if ok then n else n + 1) eid d.sends
    ({ d with sends := r.1 }, r.2.toList.map fun b => (b.caller, sendReply b.note))
  -- driver/stream/mod.rs:1085-1092
  | .left => ({ d with leavers := [] }, d.leavers.map fun c => (c, .left))
  -- driver/stream/mod.rs:1639-1660
  | .stop =>
    ({ stopped := true },
      d.joins.map (fun b => (b.caller, .shutdown b.note.contacted)) ++ d.leavers.map (fun c => (c, .shutdown [])) ++
        d.sends.map (fun b => (b.caller, .shutdown [])))

/-- A history: any sequence of steps. -/
def Driver.runs (d : Driver A) : List (Op A) → Driver A × List (Nat × Answer A)
  | [] => (d, [])
  | op :: ops =>
    let r := d.step op
    let r' := r.1.runs ops
    (r'.1, r.2 ++ r'.2)

end Verif.Pending
