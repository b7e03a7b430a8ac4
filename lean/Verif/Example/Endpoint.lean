import Verif.Proof.Reach
/-
A concrete endpoint used by the examples beside the theorems. Ids and addresses are small numbers.
-/
namespace Verif.Ex
open Verif Ep Spec

/-- A one-byte codec for numbers below 256. -/
def natCodec : DataCodec Nat where
  encode n := if n < 256 then some [UInt8.ofNat n] else none
  decode b := match b with
    | [x] => some (1, x.toNat)
    | _ => none

/-- The options of node 0 at address 100. -/
def cfg : Cfg Nat Nat where
  localId := 0
  advertise := 100
  initialMeta := [7]
  initialLocalState := []
  suspicionMult := 4
  suspicionMaxTimeoutMult := 6
  probeInterval := 1000 * MS
  gossipToTheDead := 30000 * MS
  deadNodeReclaim := 5000 * MS
  awarenessMax := 8
  indirectChecks := 3
  maxIndirectForwards := 2
  maxMembers := some 5
  ackPayloadToMembersOnly := true
  probeTimeout := 500 * MS
  streamTimeout := 10000 * MS
  maxStreamFrameSize := 2 * 1024 * 1024
  gossipMtu := 1400
  gossipInterval := 200 * MS
  gossipNodes := 3
  metaMaxSize := 512
  pushPullInterval := 30000 * MS
  retransmitMult := 4
  userTiers := 2
  pv := .v1
  dv := .v1
  initialIncarnation := 0

/-- An environment: everything is accepted except ids from 200 on and push/pulls of more than 3 nodes; the
draws are constant. -/
def env : Env Nat Nat where
  CI := natCodec
  CA := natCodec
  accel := fun n k min max => (max - n * (max - min) / k) / MS
  suspMinMs := fun n => 4000 * n
  tape := fun _ _ => 0
  order := fun _ l => l
  order_perm := fun _ l => List.Perm.refl l
  aliveOk := fun _ n => n.id < 200
  mergeOk := fun _ l => l.length < 4

/-- The endpoint at time 0. -/
def e0 : Ep Nat Nat :=
  refreshCache { core := Core.init cfg env 0
                 user := .new cfg.userTiers cfg.retransmitMult
                 localState := cfg.initialLocalState
                 cached := { join := false, states := [], userData := [] } }

theorem e0_ok : tryNew cfg env 0 = .ok e0 := by
  have h : (match tryNew cfg env 0 with | .ok _ => true | .error _ => false) = true := by decide +kernel
  cases hn : tryNew cfg env 0 with
  | error x => rw [hn] at h; cases h
  | ok e => rw [tryNew_eq hn]; rfl

/-- The state after a history. -/
def after (ops : List (Op Nat Nat)) : Ep Nat Nat := Ep.run cfg env e0 ops

theorem after_reachable (ops : List (Op Nat Nat)) : Reachable cfg env (after ops) := ⟨0, e0, ops, e0_ok, rfl⟩

/-- An Alive claim about `id` at address `100 + id`. -/
def alive (id inc : Nat) (md : Bytes := []) : Message Nat Nat :=
  .alive { incarnation := inc, metadata := md, node := { id := id, addr := 100 + id }, pv := .v1, dv := .v1 }
/-- A Suspect claim. -/
def suspect (id inc src : Nat) : Message Nat Nat := .suspect { incarnation := inc, node := id, src := src }
/-- A Dead claim. -/
def dead (id inc src : Nat) : Message Nat Nat := .dead { incarnation := inc, node := id, src := src }

/-- Nodes 1 and 2 join, node 1 is suspected by node 2. -/
def h1 : List (Op Nat Nat) :=
  [.packet 101 (alive 1 5 [1]) 10, .packet 102 (alive 2 3) 20, .packet 102 (suspect 1 5 2) 30]

example : (after h1).core.members.map (fun m => (m.server.id, m.server.addr, m.incarnation, m.state)) =
    [(2, 102, 3, .alive), (0, 100, 0, .alive), (1, 101, 5, .suspect)] := by decide +kernel

/-- Node 2 is pinged by the application. -/
def hPing : List (Op Nat Nat) := h1 ++ [.ping { id := 2, addr := 102 } (100 * MS)]

/-- Node 3 joins and is probed; after the probe timeout node 2 is asked as a relay. -/
def hProbe : List (Op Nat Nat) :=
  h1 ++ [.packet 103 (alive 3 1) 40, .startProbe (50 * MS), .timeout (600 * MS)]

/-- Node 2 asks to relay a ping to node 3. -/
def hRelay : List (Op Nat Nat) :=
  h1 ++ [.packet 102 (.indirectPing { seq := 77, source := { id := 2, addr := 102 }
                                      target := { id := 3, addr := 103 } }) (50 * MS)]

end Verif.Ex
