import Verif.Model.Proto
import Verif.Model.Broadcast
import Verif.Model.Suspicion
import Verif.Model.Deadline
/-
Model of the membership core of an endpoint: the member table, suspicion timers, incarnations, the
gossip queue and the event queue, and the functions that process Alive, Suspect and Dead claims.
Source: /repo/memberlist-proto/src/endpoint/mod.rs, members/mod.rs, typed/node_state.rs

Simplifications used throughout:
* The member table is the plain list of its entries; Model/Members.lean models the vector-plus-index
  representation and C16 shows that it behaves like this list.
* Time is a natural number of nanoseconds, unbounded (`Instant` arithmetic saturates in the code).
* `u32` incarnations and sequence numbers wrap as in the code; the `u64` counters (`snapshot_version`,
  `next_member_generation`, `next_stream_id`) are unbounded.
* `Arc` sharing is not represented.
-/
namespace Verif

/-- `NodeState<I, A>`, typed/node_state.rs:5-19. -/
structure NodeState (I A : Type) where
  id : I
  addr : A
  metadata : Bytes
  state : NState
  pv : Version
  dv : Version
  deriving DecidableEq, Repr

/-- `Member<I, A>` with its `LocalNodeState<I, A>`, members/mod.rs:24-30, 127-144. -/
structure Member (I A : Type) where
  server : NodeState I A
  incarnation : Nat
  stateChange : Nat
  state : NState
  susp : Option (Suspicion I)
  gen : Nat
  deriving DecidableEq, Repr

namespace Member
variable {I A : Type}
/-- `id_ref`, members/mod.rs:113-115. -/
def id (m : Member I A) : I := m.server.id
/-- `dead_or_left`, members/mod.rs:106-108. -/
def deadOrLeft (m : Member I A) : Bool := m.state = .dead ∨ m.state = .left
/-- `set_state`, members/mod.rs:90-93. -/
def setState (m : Member I A) (s : NState) (now : Nat) : Member I A :=
  { m with state := s, stateChange := now }
end Member

/-- The member table as a list, see the header. members/mod.rs:239-243. -/
abbrev Table (I A : Type) := List (Member I A)

namespace Table
variable {I A : Type} [DecidableEq I]
/-- `Members::get`, members/mod.rs:313-316. -/
def get (t : Table I A) (id : I) : Option (Member I A) := t.find? (fun m => m.id = id)
/-- `Members::get_mut` followed by an in-place change, members/mod.rs:320-323. -/
def update (t : Table I A) (id : I) (f : Member I A → Member I A) : Table I A :=
  t.map (fun m => if m.id = id then f m else m)
/-- `Members::remove`, members/mod.rs:327-336. -/
def remove (t : Table I A) (id : I) : Table I A := t.filter (fun m => m.id ≠ id)
/-- `Vec::swap`; out of range does nothing (the callers stay in range). Standard library, used at
members/mod.rs:352 and 404. -/
def swap (t : Table I A) (i j : Nat) : Table I A :=
  match t[i]?, t[j]? with
  | some a, some b => (t.set i b).set j a
  | _, _ => t
/-- `insert_at_random_at`, members/mod.rs:390-410: append, then swap with position `target`. -/
def insertAt (t : Table I A) (m : Member I A) (target : Nat) : Table I A :=
  swap (t ++ [m]) t.length target
/-- The loop of `shuffle`, members/mod.rs:347-355. -/
def shuffleLoop (pick : Nat → Nat) : Nat → Table I A → Table I A
  | 0, t => t
  | i + 1, t => shuffleLoop pick i (swap t (i + 1) (pick (i + 1) % (i + 2)))
/-- `Members::shuffle`, members/mod.rs:345-357. -/
def shuffle (t : Table I A) (pick : Nat → Nat) : Table I A := shuffleLoop pick (t.length - 1) t
end Table

/-- `Lifecycle`, endpoint/mod.rs:54-62. -/
inductive Lifecycle where
  | running | leaving | left
  deriving DecidableEq, Repr

/-- `ExchangeKind`, event/mod.rs:119-126. -/
inductive ExKind where
  | pushPull | reliablePing | userMessage
  deriving DecidableEq, Repr

/-- `ExchangeCompleted<A>`, event/mod.rs:174-179, with `ExchangeStatus` (event/mod.rs:140-145) as a flag. -/
structure Completion (A : Type) where
  exchange : Nat
  peer : A
  ok : Bool
  kind : ExKind
  deriving DecidableEq, Repr

/-- `Event<I, A>`, event/mod.rs:734-778. `external` is what the layers above the endpoint emit:
`ExchangeCompleted`, or `DecodeError` (`none`). -/
inductive Event (I A : Type) where
  | nodeJoined (n : NodeState I A)
  | nodeLeft (n : NodeState I A)
  | nodeUpdated (n : NodeState I A)
  | nodeConflict (existing other : NodeState I A)
  | userPacket (src : A) (data : Bytes) (reliable : Bool)
  | remoteState (peer : A) (data : Bytes) (join : Bool) (stream : Nat)
  | leftCluster
  | pingCompleted (seq : Nat) (target : NodeState I A) (rtt : Nat) (payload : Bytes)
  | pingFailed (seq : Nat) (target : NodeState I A)
  | dialRequested (stream : Nat) (peer : A) (deadline : Nat)
  | external (r : Option (Completion A))
  deriving DecidableEq, Repr

namespace Event
variable {I A : Type}
/-- The three membership events, endpoint/mod.rs:472-475. -/
def isMembership : Event I A → Bool
  | .nodeJoined _ => true
  | .nodeLeft _ => true
  | .nodeUpdated _ => true
  | _ => false
/-- A dial request, endpoint/mod.rs:719, 3621. -/
def isDial : Event I A → Bool
  | .dialRequested _ _ _ => true
  | _ => false
end Event

/-- `EndpointOptions<I, A>`, config/mod.rs:246-423: the options the endpoint reads. Durations are in
nanoseconds. -/
structure Cfg (I A : Type) where
  localId : I
  advertise : A
  initialMeta : Bytes
  initialLocalState : Bytes
  suspicionMult : Nat
  suspicionMaxTimeoutMult : Nat
  probeInterval : Nat
  gossipToTheDead : Nat
  deadNodeReclaim : Nat
  awarenessMax : Nat
  indirectChecks : Nat
  maxIndirectForwards : Nat
  maxMembers : Option Nat
  ackPayloadToMembersOnly : Bool
  probeTimeout : Nat
  streamTimeout : Nat
  maxStreamFrameSize : Nat
  gossipMtu : Nat
  gossipInterval : Nat
  gossipNodes : Nat
  metaMaxSize : Nat
  pushPullInterval : Nat
  retransmitMult : Nat
  userTiers : Nat
  pv : Version
  dv : Version
  initialIncarnation : Nat

/-- Everything outside the endpoint that it consults. The codecs of ids and addresses; the two floating-point
formulas; and, indexed by a tick that grows with every use, the random draws, the iteration order of hash maps
and the verdicts of the two delegates. The theorems hold for every environment. Model only, no counterpart in
the code: it gathers the codecs, the `f64` formulas, the random generator and the delegates used by
endpoint/mod.rs. -/
structure Env (I A : Type) where
  CI : DataCodec I
  CA : DataCodec A
  accel : Accel
  /-- The `f64` part of `suspicion_timeouts`, endpoint/mod.rs:1222-1243: `min_ms` for a number of members. -/
  suspMinMs : Nat → Nat
  tape : Nat → Nat → Nat
  order : Nat → List Nat → List Nat
  order_perm : ∀ t l, (order t l).Perm l
  /-- `AliveDelegate::notify_alive`; without a delegate this is constantly `true`. -/
  aliveOk : Nat → NodeState I A → Bool
  /-- `MergeDelegate::notify_merge`; without a delegate this is constantly `true`. -/
  mergeOk : Nat → List (NodeState I A) → Bool

/-- `encode_message(..).map(len).unwrap_or(usize::MAX)`. Where the code has `expect` instead
(endpoint/mod.rs:2822, 2755, broadcast/mod.rs:555) an unencodable message panics; here it counts as
`usize::MAX` bytes. -/
def wireLen {I A : Type} (CI : DataCodec I) (CA : DataCodec A) (m : Message I A) : Nat :=
  match encodeTyped CI CA m with
  | .ok b => min b.length U64_MAX
  | .error _ => U64_MAX

/-- `Broadcast for MemberlistBroadcast<I, A>`, broadcast/mod.rs:498-563. -/
def claimOps {I A : Type} [DecidableEq I] (len : Message I A → Nat) :
    BroadcastOps I (I × Message I A) (Message I A) where
  id b := some b.1
  invalidates a b := a.1 = b.1
  message b := b.2
  encodedLen := len
  isUnique _ := false

/-- The membership part of `Endpoint`, endpoint/mod.rs:215-327. -/
structure Core (I A : Type) where
  members : Table I A
  nextGen : Nat
  suspIdx : DeadlineIndex I
  awareness : Awareness
  bcast : BQueue I (I × Message I A)
  snapVer : Nat
  incarnation : Nat
  lifecycle : Lifecycle
  events : List (Event I A)
  membersRejected : Nat

namespace Core
variable {I A : Type} [DecidableEq I] [DecidableEq A]

section
omit [DecidableEq I] [DecidableEq A]
/-- `bump_snapshot_version`, endpoint/mod.rs:483-485. -/
def bump (c : Core I A) : Core I A := { c with snapVer := c.snapVer + 1 }

/-- `emit_event`, endpoint/mod.rs:467-479. -/
def emit (c : Core I A) (ev : Event I A) : Core I A :=
  { c with
    snapVer := if ev.isMembership then c.snapVer + 1 else c.snapVer
    events := c.events ++ [ev] }

/-- The `Alive` claim describing a node, endpoint/mod.rs:1580-1589, 1631-1634. -/
def aliveOf (n : NodeState I A) (inc : Nat) : Alive I A :=
  { incarnation := inc, metadata := n.metadata, node := { id := n.id, addr := n.addr }, pv := n.pv, dv := n.dv }
end

variable (cfg : Cfg I A) (env : Env I A)

omit [DecidableEq A] in
/-- `broadcast_message`, endpoint/mod.rs:1596-1600. -/
def broadcast (c : Core I A) (node : I) (msg : Message I A) : Core I A :=
  { c with bcast := (c.bcast.queueBroadcast (claimOps (wireLen env.CI env.CA)) (node, msg)).1 }

omit [DecidableEq I] [DecidableEq A] in
/-- `next_incarnation`, endpoint/mod.rs:515-518. -/
def nextIncarnation (c : Core I A) : Core I A :=
  { c with incarnation := (c.incarnation + 1) % 2 ^ 32 }

omit [DecidableEq I] [DecidableEq A] in
/-- `skip_incarnation_past`, endpoint/mod.rs:522-527. -/
def skipIncarnationPast (c : Core I A) (accused : Nat) : Core I A :=
  if c.incarnation ≤ accused then { c with incarnation := (accused + 1) % 2 ^ 32 } else c

omit [DecidableEq A] in
/-- `refute`, endpoint/mod.rs:1607-1637. -/
def refute (c : Core I A) (accused : Nat) : Core I A :=
  if c.lifecycle ≠ .running then c
  else
    let c := c.nextIncarnation
    let c := if accused ≥ c.incarnation then c.skipIncarnationPast accused else c
    let c := { c with awareness := c.awareness.recordFailure 1 }
    let c := c.bump
    match c.members.get cfg.localId with
    | none => c
    | some m =>
      let inc := c.incarnation
      let c := { c with members := c.members.update cfg.localId (fun m => { m with incarnation := inc }) }
      c.broadcast env m.server.id (.alive (aliveOf m.server inc))

omit [DecidableEq A] in
/-- `install_suspicion`, endpoint/mod.rs:1645-1654. -/
def installSuspicion (c : Core I A) (id : I) (s : Suspicion I) : Core I A :=
  match c.members.get id with
  | none => c
  | some _ =>
    { c with
      members := c.members.update id (fun m => { m with susp := some s })
      suspIdx := c.suspIdx.set id (some s.deadline) }

omit [DecidableEq A] in
/-- `clear_suspicion`, endpoint/mod.rs:1661-1667. -/
def clearSuspicion (c : Core I A) (id : I) : Core I A :=
  { c with
    members := c.members.update id (fun m => { m with susp := none })
    suspIdx := c.suspIdx.set id none }

omit [DecidableEq I] [DecidableEq A] in
/-- `suspicion_timeouts`, endpoint/mod.rs:1222-1252; the `f64` part is `env.suspMinMs`. -/
def suspicionTimeouts (c : Core I A) : Nat × Nat :=
  let min := env.suspMinMs (Nat.max c.members.length 1) * MS
  let max := min * cfg.suspicionMaxTimeoutMult
  (min, if max ≤ DURATION_MAX then max else min)

omit [DecidableEq A] in
/-- `process_suspect`, endpoint/mod.rs:1677-1773. -/
def processSuspect (c : Core I A) (s : BadState I) (now : Nat) : Core I A :=
  if c.lifecycle ≠ .running then c
  else
    match c.members.get s.node with
    | none => c
    | some m =>
      if s.incarnation < m.incarnation then c
      else
        match m.susp with
        | some susp =>
          match susp.confirm env.accel s.src now with
          | (susp', .accepted d) =>
            let c := { c with
              members := c.members.update s.node (fun m => { m with susp := some susp' })
              suspIdx := c.suspIdx.set s.node (some d) }
            c.broadcast env s.node (.suspect s)
          | (_, .ignored) => c
        | none =>
          if m.state ≠ .alive then c
          else if s.node = cfg.localId then c.refute cfg env s.incarnation
          else
            let (min, max) := c.suspicionTimeouts cfg env
            let k := if c.members.length ≥ cfg.suspicionMult then cfg.suspicionMult - 2 else 0
            let c := c.installSuspicion s.node (Suspicion.new s.src k min max now)
            let c := { c with
              members := c.members.update s.node
                (fun m => { m with incarnation := s.incarnation }.setState .suspect now) }
            let c := c.bump
            c.broadcast env s.node (.suspect s)

omit [DecidableEq A] in
/-- `process_dead`, endpoint/mod.rs:1783-1881. -/
def processDead (c : Core I A) (d : BadState I) (now : Nat) : Core I A :=
  match c.members.get d.node with
  | none => c
  | some m =>
    if d.incarnation < m.incarnation then c
    else if m.state = .dead ∨ m.state = .left then c
    else if d.node = cfg.localId then
      if c.lifecycle ≠ .leaving then c.refute cfg env d.incarnation
      else
        let c := c.clearSuspicion d.node
        let c := { c with
          members := c.members.update d.node
            (fun m => { m with incarnation := d.incarnation }.setState .left now) }
        let c := c.broadcast env d.node (.dead d)
        let c := c.emit (.nodeLeft m.server)
        { c with lifecycle := .left }
    else if c.lifecycle ≠ .running then c
    else
      let c := c.clearSuspicion d.node
      let c := { c with
        members := c.members.update d.node
          (fun m => { m with incarnation := d.incarnation }.setState
            (if d.node = d.src then .left else .dead) now) }
      let c := c.broadcast env d.node (.dead d)
      c.emit (.nodeLeft m.server)

/-- The node described by an `Alive` claim, endpoint/mod.rs:3844-3851, 3901-3910, 3998-4007. -/
def nodeOf {I A : Type} (a : Alive I A) (st : NState) : NodeState I A :=
  { id := a.node.id, addr := a.node.addr, metadata := a.metadata, state := st, pv := a.pv, dv := a.dv }

/-- What the first part of `process_alive_decided` decides, endpoint/mod.rs:3881-3953. -/
inductive Admission (I A : Type) where
  | reject (c : Core I A)
  | admit (c : Core I A) (isNew updatesAddress : Bool)

/-- Is the table at the configured cap, endpoint/mod.rs:3923-3930. -/
def isFull {I A : Type} (cfg : Cfg I A) (n : Nat) : Bool :=
  match cfg.maxMembers with
  | some max => decide (n ≥ max)
  | none => false

/-- The first part of `process_alive_decided`, endpoint/mod.rs:3881-3953: address conflict, reclaim,
capacity, insertion of a placeholder for a new id. `offset` is the random position. -/
def admitAlive (c : Core I A) (a : Alive I A) (offset now : Nat) : Admission I A :=
  match c.members.get a.node.id with
  | some m =>
    if m.server.addr ≠ a.node.addr then
      let canReclaim := cfg.deadNodeReclaim > 0 ∧ now - m.stateChange > cfg.deadNodeReclaim
      if m.state = .left ∨ (m.state = .dead ∧ canReclaim) then .admit c false true
      else .reject (c.emit (.nodeConflict m.server (nodeOf a .alive)))
    else .admit c false false
  | none =>
    if isFull cfg c.members.length then
      .reject { c with membersRejected := c.membersRejected + 1 }
    else
      let m : Member I A :=
        { server := nodeOf a .dead, incarnation := 0, stateChange := now, state := .dead
          susp := none, gen := c.nextGen }
      let n := c.members.length
      .admit { c with nextGen := c.nextGen + 1, members := c.members.insertAt m (offset % (n + 1)) }
        true false

omit [DecidableEq I] [DecidableEq A] in
/-- The change of the record when a claim is accepted, endpoint/mod.rs:4018-4029. -/
def adoptAlive (a : Alive I A) (gen : Option Nat) (now : Nat) (m : Member I A) : Member I A :=
  let m : Member I A :=
    { m with gen := gen.getD m.gen, incarnation := a.incarnation, server := nodeOf a .alive }
  if m.state ≠ .alive then m.setState .alive now else m

/-- `process_alive_decided`, endpoint/mod.rs:3865-4059. `bootstrap` is `false` in every call of the
crate outside its tests. -/
def processAliveDecided (c : Core I A) (a : Alive I A) (bootstrap : Bool) (offset now : Nat) :
    Core I A :=
  match c.admitAlive cfg a offset now with
  | .reject c => c
  | .admit c isNew updatesAddress =>
    let isLocal : Bool := a.node.id = cfg.localId
    match c.members.get a.node.id with
    | none => c
    | some m =>
      if !isNew && !updatesAddress && !isLocal && decide (a.incarnation ≤ m.incarnation) then c
      else if isLocal && decide (a.incarnation < m.incarnation) then c
      else
        let c := c.clearSuspicion a.node.id
        if !bootstrap && isLocal then
          if a.incarnation = m.incarnation ∧ m.server.metadata = a.metadata ∧ m.server.pv = a.pv ∧
              m.server.dv = a.dv then c
          else c.refute cfg env a.incarnation
        else
          let gen := if updatesAddress then some c.nextGen else none
          let c := if updatesAddress then { c with nextGen := c.nextGen + 1 } else c
          let c := { c with
            members := c.members.update a.node.id (adoptAlive a gen now) }
          let c := if !bootstrap || !isLocal then c.broadcast env a.node.id (.alive a) else c
          if m.state = .dead ∨ m.state = .left then c.emit (.nodeJoined (nodeOf a .alive))
          else if m.server.metadata ≠ a.metadata then c.emit (.nodeUpdated (nodeOf a .alive))
          else c.bump

/-- `process_alive`, endpoint/mod.rs:3828-3860. `ok` is the verdict of the alive delegate about this
claim. -/
def processAlive (c : Core I A) (a : Alive I A) (ok : Bool) (offset now : Nat) : Core I A :=
  if c.lifecycle ≠ .running then c
  else if !ok then c
  else c.processAliveDecided cfg env a false offset now

omit [DecidableEq I] [DecidableEq A] in
/-- The members whose suspicion has run out, endpoint/mod.rs:2176-2184. -/
def expiredIds (c : Core I A) (now : Nat) : List I :=
  (c.members.filter (fun m => match m.susp with
    | some s => decide (s.deadline ≤ now)
    | none => false)).map Member.id

omit [DecidableEq A] in
/-- Declaring one of them dead, endpoint/mod.rs:2189-2195. -/
def expireOne (now : Nat) (c : Core I A) (id : I) : Core I A :=
  let inc := match c.members.get id with
    | some m => m.incarnation
    | none => 0
  c.processDead cfg env { incarnation := inc, node := id, src := cfg.localId } now

omit [DecidableEq A] in
/-- `fire_expired_suspicions`, endpoint/mod.rs:2167-2197. -/
def fireExpiredSuspicions (c : Core I A) (now : Nat) : Core I A :=
  (c.expiredIds now).foldl (expireOne cfg env now) c

omit [DecidableEq A] in
/-- The members `reset_nodes` reclaims, endpoint/mod.rs:4660-4675. -/
def reapable (m : Member I A) (now : Nat) : Bool :=
  decide (m.id ≠ cfg.localId) && decide (m.state = .dead ∨ m.state = .left) &&
    decide (now - m.stateChange > cfg.gossipToTheDead)

omit [DecidableEq A] in
/-- `reset_nodes`, endpoint/mod.rs:4654-4703, without the reset of the probe index. -/
def resetNodes (c : Core I A) (pick : Nat → Nat) (now : Nat) : Core I A :=
  let ids := (c.members.filter (fun m => reapable cfg m now)).map Member.id
  let c := if ids.isEmpty then c else c.bump
  let c := ids.foldl
    (fun c id => { c with suspIdx := c.suspIdx.set id none, members := c.members.remove id }) c
  { c with members := c.members.shuffle pick }

omit [DecidableEq A] in
/-- `update_meta` after its checks, endpoint/mod.rs:2617-2643. -/
def updateMeta (c : Core I A) (metadata : Bytes) : Core I A :=
  let c := c.nextIncarnation
  let inc := c.incarnation
  let server : NodeState I A :=
    { id := cfg.localId, addr := cfg.advertise, metadata, state := .alive, pv := cfg.pv, dv := cfg.dv }
  let c := { c with
    members := c.members.update cfg.localId (fun m => { m with incarnation := inc, server }) }
  let c := c.broadcast env cfg.localId (.alive (aliveOf server inc))
  c.emit (.nodeUpdated server)

omit [DecidableEq A] in
/-- The part of `leave_with` up to the farewell transmissions that concerns membership,
endpoint/mod.rs:3601, 3619-3635. -/
def beginLeave (c : Core I A) (now : Nat) : Core I A :=
  let c := { c with
    lifecycle := .leaving
    events := c.events.filter (fun e => !e.isDial) }
  let inc := match c.members.get cfg.localId with
    | some m => Nat.max m.incarnation c.incarnation
    | none => c.incarnation
  c.processDead cfg env { incarnation := inc, node := cfg.localId, src := cfg.localId } now

/-- The membership part of `try_new_at`, endpoint/mod.rs:1437-1532. -/
def init (now : Nat) : Core I A :=
  let server : NodeState I A :=
    { id := cfg.localId, addr := cfg.advertise, metadata := cfg.initialMeta, state := .alive
      pv := cfg.pv, dv := cfg.dv }
  let c : Core I A :=
    { members := [{ server, incarnation := cfg.initialIncarnation, stateChange := now, state := .alive
                    susp := none, gen := 1 }]
      nextGen := 2
      suspIdx := .new
      awareness := { max := cfg.awarenessMax, score := 0 }
      bcast := .new cfg.retransmitMult
      snapVer := 0
      incarnation := cfg.initialIncarnation
      lifecycle := .running
      events := []
      membersRejected := 0 }
  let c := c.broadcast env cfg.localId (.alive (aliveOf server cfg.initialIncarnation))
  c.emit (.nodeJoined server)

end Core
end Verif
