import Verif.Model.Map
/-
Model of the gossip retransmit queue and the ranked user queue.
Source: /repo/memberlist-proto/src/broadcast/mod.rs
-/
namespace Verif

/-- `ceil(log10(n))` for `n ≥ 1`, on naturals: the least `k` with `n ≤ 10^k`. `fuel` bounds the search
and never runs out for `n ≤ 10^fuel`. -/
def ceilLog10 (n : Nat) : Nat := go n 0 1
where
  go : Nat → Nat → Nat → Nat
    | 0, k, _ => k
    | fuel + 1, k, p => if n ≤ p then k else go fuel (k + 1) (p * 10)

/-- `retransmit_limit`, broadcast/mod.rs:12-15. The code computes `ceil(log10(n + 1))` in `f64`; here
it is the exact integer value. -/
def retransmitLimit (mult n : Nat) : Nat := mult * ceilLog10 (n + 1)

/-- The `Broadcast` trait, broadcast/mod.rs:21-56, as a dictionary. `finished` is not a function here:
every operation returns the broadcasts it notified. -/
structure BroadcastOps (Id B Msg : Type) where
  id : B → Option Id
  invalidates : B → B → Bool
  message : B → Msg
  encodedLen : Msg → Nat
  isUnique : B → Bool

/-- `LimitedBroadcast<B>`, broadcast/mod.rs:59-68. `tok` is the identity of the `Arc` (ghost): the
number of the `queue_broadcast` call that created it. -/
structure LB (B : Type) where
  transmits : Nat
  msgLen : Nat
  id : Nat
  broadcast : B
  tok : Nat
  deriving DecidableEq, Repr

namespace LB
variable {B : Type}
/-- `cmp(a, b) == Less`, broadcast/mod.rs:94-102: transmits ascending, length descending, id
descending. -/
def before (a b : LB B) : Bool :=
  a.transmits < b.transmits ||
    (a.transmits == b.transmits &&
      (b.msgLen < a.msgLen || (a.msgLen == b.msgLen && b.id < a.id)))

/-- `eq`, broadcast/mod.rs:80-84: equality of the three key components only. -/
def sameKey (a b : LB B) : Bool :=
  a.transmits == b.transmits && a.msgLen == b.msgLen && a.id == b.id
end LB

/-- `u64::MAX`. -/
def U64_MAX : Nat := 2 ^ 64 - 1

/-- `Cmp`, broadcast/mod.rs:104-109. -/
structure CmpKey where
  transmits : Nat
  msgLen : Nat
  id : Nat

/-- `Cmp::partial_cmp(item)`, broadcast/mod.rs:117-127. -/
def CmpKey.cmp {B : Type} (c : CmpKey) (item : LB B) : Ordering :=
  (compare c.transmits item.transmits).then
    ((compare item.msgLen c.msgLen).then (compare item.id c.id))

/-- `BTreeSet::insert` on the ordered list; the flag says whether the item was new. Standard library, used by
the queue field, broadcast/mod.rs:138. -/
def setInsert {B : Type} : List (LB B) → LB B → List (LB B) × Bool
  | [], x => ([x], true)
  | y :: q, x =>
    if x.sameKey y then (y :: q, false)
    else if x.before y then (x :: y :: q, true)
    else
      let (q', b) := setInsert q x
      (y :: q', b)

/-- `BTreeSet::remove`. Standard library, used by the queue field, broadcast/mod.rs:138. -/
def setRemove {B : Type} (q : List (LB B)) (x : LB B) : List (LB B) :=
  q.filter (fun y => !x.sameKey y)

/-- `BroadcastQueue<Id, B>`, broadcast/mod.rs:136-141. `q` lists the `BTreeSet` in order; `calls`
(ghost) counts `queue_broadcast` calls. -/
structure BQueue (Id B : Type) where
  mult : Nat
  q : List (LB B)
  m : Map Id (LB B)
  idGen : Nat
  calls : Nat

namespace BQueue
variable {Id B Msg : Type} [DecidableEq Id]

/-- `BroadcastQueue::new`, broadcast/mod.rs:145-152. -/
def new (mult : Nat) : BQueue Id B := { mult, q := [], m := [], idGen := 0, calls := 0 }

/-- `peek_first_sendable_encoded_len`, broadcast/mod.rs:175-181. -/
def peekFirstSendable (s : BQueue Id B) (mtu : Nat) : Option Nat :=
  (s.q.find? (fun x => x.msgLen ≤ mtu)).map (·.msgLen)

/-- `next_id`, broadcast/mod.rs:183-190. -/
def nextId (g : Nat) : Nat := if g = U64_MAX then 1 else g + 1

/-- `transmit_range`, broadcast/mod.rs:192-197. -/
def transmitRange (q : List (LB B)) : Nat × Nat :=
  match q.head?, q.getLast? with
  | some a, some b => (a.transmits, b.transmits)
  | _, _ => (0, 0)

/-- `if let Some(id) = item.broadcast.id() { self.m.remove(id); }`, broadcast/mod.rs:275-277, 368-370,
436-438, 484-486. -/
def dropIndex (ops : BroadcastOps Id B Msg) (m : Map Id (LB B)) (x : LB B) : Map Id (LB B) :=
  match ops.id x.broadcast with
  | some i => m.erase i
  | none => m

/-- `if let Some(id) = id { self.m.insert(id, item); }`, broadcast/mod.rs:221-225. -/
def addIndex (ops : BroadcastOps Id B Msg) (m : Map Id (LB B)) (x : LB B) : Map Id (LB B) :=
  match ops.id x.broadcast with
  | some i => m.insert i x
  | none => m

/-- Removing one item from both containers: `q.remove(&x)` and, when it has an id, `m.remove(id)`
(broadcast/mod.rs:273-277, 367-370, 434-437). -/
def removeItem (ops : BroadcastOps Id B Msg) (s : BQueue Id B) (x : LB B) : BQueue Id B :=
  { s with q := setRemove s.q x, m := dropIndex ops s.m x }

/-- `insert_into`, broadcast/mod.rs:205-226. -/
def insertInto (ops : BroadcastOps Id B Msg) (s : BQueue Id B) (item : LB B) : BQueue Id B :=
  let (q, inserted) := setInsert s.q item
  if inserted then
    { s with q, m := addIndex ops s.m item }
  else { s with q }

/-- `if self.q.is_empty() { self.id_gen = 0 }`. broadcast/mod.rs:396, 451, 489. -/
def resetIdle (s : BQueue Id B) : BQueue Id B :=
  if s.q.isEmpty then { s with idGen := 0 } else s

/-- The invalidation part of `queue_broadcast`, broadcast/mod.rs:253-282; returns the notified
broadcasts. -/
def invalidate (ops : BroadcastOps Id B Msg) (s : BQueue Id B) (b : B) : BQueue Id B × List (LB B) :=
  match ops.id b with
  | some bid =>
    match s.m.get? bid with
    | some old =>
      (resetIdle { s with m := s.m.erase bid, q := setRemove s.q old }, [old])
    | none => (s, [])
  | none =>
    if !ops.isUnique b then
      let inv := s.q.filter (fun x => ops.invalidates b x.broadcast)
      (resetIdle (inv.foldl (removeItem ops) s), inv)
    else (s, [])

/-- `queue_broadcast`, broadcast/mod.rs:232-289; returns the notified broadcasts. -/
def queueBroadcast (ops : BroadcastOps Id B Msg) (s : BQueue Id B) (b : B) :
    BQueue Id B × List (LB B) :=
  let (s, fin) := invalidate ops s b
  let id := nextId s.idGen
  let lb : LB B :=
    { transmits := 0, msgLen := ops.encodedLen (ops.message b), id, broadcast := b, tok := s.calls }
  (insertInto ops { s with idGen := id, calls := s.calls + 1 } lb, fin)

/-- The candidate scan, broadcast/mod.rs:345-361 and 419-435: the first item of the tier whose length
is at most `fit`. -/
def candidate (q : List (LB B)) (transmits fit : Nat) : Option (LB B) :=
  let geq : CmpKey := { transmits, msgLen := fit, id := U64_MAX }
  let lt : CmpKey := { transmits := transmits + 1, msgLen := U64_MAX, id := U64_MAX }
  (q.filter (fun x => geq.cmp x ≠ .gt && lt.cmp x == .gt)).find? (fun x => x.msgLen ≤ fit)

/-- Loop state of `take_broadcasts_measured`. `sent` holds the chosen entries as they were when chosen.
broadcast/mod.rs:320 and 706. -/
structure Drain (Id B : Type) where
  s : BQueue Id B
  sent : List (LB B)
  used : Nat
  reinsert : List (LB B)
  finished : List (LB B)

/-- One choice in the drain loop, broadcast/mod.rs:363-379. -/
def drainPick (ops : BroadcastOps Id B Msg) (tl overhead : Nat) (d : Drain Id B) (keep : LB B) :
    Drain Id B :=
  { s := removeItem ops d.s keep
    sent := d.sent ++ [keep]
    used := d.used + (keep.msgLen + overhead)
    reinsert := if keep.transmits + 1 ≥ tl then d.reinsert
      else d.reinsert ++ [{ keep with transmits := keep.transmits + 1 }]
    finished := if keep.transmits + 1 ≥ tl then d.finished ++ [keep] else d.finished }

/-- The `while transmits <= max_tr` loop, broadcast/mod.rs:337-385. `fuel` bounds the iterations; the
caller supplies enough (each iteration removes an entry or moves to the next tier). -/
def drainLoop (ops : BroadcastOps Id B Msg) (tl overhead limit maxTr : Nat) :
    Nat → Nat → Drain Id B → Drain Id B
  | 0, _, d => d
  | fuel + 1, transmits, d =>
    if transmits ≤ maxTr then
      let free := limit - d.used
      if free < overhead then d
      else
        match candidate d.s.q transmits (free - overhead) with
        | some keep => drainLoop ops tl overhead limit maxTr fuel transmits (drainPick ops tl overhead d keep)
        | none => drainLoop ops tl overhead limit maxTr fuel (transmits + 1) d
    else d

/-- `take_broadcasts_measured`, broadcast/mod.rs:320-399. The chosen messages are
`sent.map (ops.message ·.broadcast)`, the charged bytes `used`; `reinsert` is emptied into the queue. -/
def takeMeasured (ops : BroadcastOps Id B Msg) (s : BQueue Id B) (numNodes overhead limit : Nat) :
    Drain Id B :=
  if s.q.isEmpty then { s, sent := [], used := 0, reinsert := [], finished := [] }
  else
    let tl := retransmitLimit s.mult numNodes
    let (minTr, maxTr) := transmitRange s.q
    let d := drainLoop ops tl overhead limit maxTr (s.q.length + (maxTr + 1 - minTr)) minTr
      { s, sent := [], used := 0, reinsert := [], finished := [] }
    { d with s := resetIdle (d.reinsert.foldl (insertInto ops) d.s), reinsert := [] }

/-- The loop of `take_one_broadcast`, broadcast/mod.rs:416-460; `fuel` = tiers left to visit. -/
def oneLoop (q : List (LB B)) (limit : Nat) : Nat → Nat → Option (LB B)
  | 0, _ => none
  | fuel + 1, transmits =>
    match candidate q transmits limit with
    | some keep => some keep
    | none => oneLoop q limit fuel (transmits + 1)

/-- `take_one_broadcast`, broadcast/mod.rs:410-461. -/
def takeOne (ops : BroadcastOps Id B Msg) (s : BQueue Id B) (numNodes limit : Nat) : Drain Id B :=
  if s.q.isEmpty then { s, sent := [], used := 0, reinsert := [], finished := [] }
  else
    let tl := retransmitLimit s.mult numNodes
    let (minTr, maxTr) := transmitRange s.q
    match oneLoop s.q limit (maxTr + 1 - minTr) minTr with
    | none => { s, sent := [], used := 0, reinsert := [], finished := [] }
    | some keep =>
      let s := removeItem ops s keep
      if keep.transmits + 1 ≥ tl then
        { s := resetIdle s, sent := [keep], used := keep.msgLen, reinsert := [], finished := [keep] }
      else
        { s := resetIdle (insertInto ops s { keep with transmits := keep.transmits + 1 })
          sent := [keep], used := keep.msgLen, reinsert := [], finished := [] }

/-- `reset`, broadcast/mod.rs:464-471; returns the notified broadcasts. -/
def reset (s : BQueue Id B) : BQueue Id B × List (LB B) :=
  ({ s with q := [], m := [], idGen := 0 }, s.q)

/-- The loop of `prune`, broadcast/mod.rs:481-487; `excess` entries are popped from the back. -/
def pruneLoop (ops : BroadcastOps Id B Msg) : Nat → BQueue Id B → List (LB B) →
    BQueue Id B × List (LB B)
  | 0, s, fin => (s, fin)
  | n + 1, s, fin =>
    match s.q.getLast? with
    | none => (s, fin)
    | some x =>
      pruneLoop ops n
        { s with q := s.q.dropLast, m := dropIndex ops s.m x }
        (fin ++ [x])

/-- `prune`, broadcast/mod.rs:480-491. -/
def prune (ops : BroadcastOps Id B Msg) (s : BQueue Id B) (maxRetain : Nat) :
    BQueue Id B × List (LB B) :=
  let (s, fin) := pruneLoop ops (s.q.length - maxRetain) s []
  (resetIdle s, fin)

end BQueue

/-- `UserBroadcasts<Id, B>`, broadcast/mod.rs:639-641. -/
structure UserBroadcasts (Id B : Type) where
  tiers : List (BQueue Id B)

namespace UserBroadcasts
variable {Id B Msg : Type} [DecidableEq Id]

/-- `UserBroadcasts::new`, broadcast/mod.rs:646-652 (`tiers` is a `NonZeroUsize`). -/
def new (tiers mult : Nat) : UserBroadcasts Id B := { tiers := List.replicate tiers (BQueue.new mult) }

/-- `queue_ranked`, broadcast/mod.rs:684-687; `none` is the index panic (no tier at all). -/
def queueRanked (ops : BroadcastOps Id B Msg) (u : UserBroadcasts Id B) (rank : Nat) (b : B) :
    Option (UserBroadcasts Id B × List (LB B)) :=
  let i := min rank (u.tiers.length - 1)
  match u.tiers[i]? with
  | none => none
  | some t =>
    let (t', fin) := t.queueBroadcast ops b
    some ({ tiers := u.tiers.set i t' }, fin)

/-- `reset`, broadcast/mod.rs:693-697. -/
def reset (u : UserBroadcasts Id B) : UserBroadcasts Id B × List (LB B) :=
  ({ tiers := u.tiers.map (fun t => t.reset.1) }, (u.tiers.map (fun t => t.reset.2)).flatten)

/-- The loop of `take_broadcasts_measured`, broadcast/mod.rs:714-721. Returns the tiers, the chosen
entries per tier in order, the charged bytes and the notified broadcasts. -/
def takeLoop (ops : BroadcastOps Id B Msg) (numNodes overhead limit : Nat) :
    List (BQueue Id B) → Nat → List (BQueue Id B) × List (List (LB B)) × Nat × List (LB B)
  | [], used => ([], [], used, [])
  | t :: ts, used =>
    if used ≥ limit then (t :: ts, [], used, [])
    else
      let d := t.takeMeasured ops numNodes overhead (limit - used)
      let (ts', sent, used', fin) := takeLoop ops numNodes overhead limit ts (used + d.used)
      (d.s :: ts', d.sent :: sent, used', d.finished ++ fin)

/-- `take_broadcasts_measured`, broadcast/mod.rs:706-723. -/
def takeMeasured (ops : BroadcastOps Id B Msg) (u : UserBroadcasts Id B)
    (numNodes overhead limit : Nat) :
    UserBroadcasts Id B × List (List (LB B)) × Nat × List (LB B) :=
  let (ts, sent, used, fin) := takeLoop ops numNodes overhead limit u.tiers 0
  ({ tiers := ts }, sent, used, fin)

end UserBroadcasts
end Verif
