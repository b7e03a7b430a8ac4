import Verif.Model.Coord
import Verif.Example.Cluster
import Verif.Props.Transform
/-
Two concrete coordinators used by the examples beside the theorems: node 0 joins through node 1 over a
labelled, encrypted connection.
-/
namespace Verif.Ex
open Verif Coord

/-- Toy transforms, one nonce, hash iteration in insertion order. -/
def T0 : TEnv where
  B := Verif.Props.toyB
  nonce := fun _ _ => List.replicate 12 7
  order := fun _ l => l
  order_perm := fun _ l => List.Perm.refl l

/-- The label is `ab`. -/
def X0 : XCfg := { label := some [97, 98], skipLabel := false, acceptDeadline := 10 * MS, maxInbound := some 1 }

/-- A keyring of one key. -/
def ring0 : Option Keyring := some (Keyring.new Verif.Props.toyKey1)

/-- No compression. -/
def cmp0 : CmpOptions := { algorithm := none, threshold := 0 }

/-- Node 0. -/
def c0 : Coord Nat Nat := Coord.new Ex.e0 cmp0

/-- Node 1. -/
def e1 : Ep Nat Nat :=
  match Ep.tryNew Ex.cfg1 Ex.env 0 with
  | .ok e => e
  | .error _ => Ex.e0

/-- Node 1. -/
def c1 : Coord Nat Nat := Coord.new e1 cmp0

/-- Node 0 dials node 1. -/
def dialOps : List (XOp Nat Nat) := [.setEncryption ring0, .startPushPull 101 .join 5]

/-- What node 0 wants to write to the connection. -/
def wire : Bytes := (c0.run cfg env X0 T0 dialOps).out.flatMap (fun e => e.2.2)

/-- Node 1 accepts the connection and receives the request in two pieces. -/
def acceptOps : List (XOp Nat Nat) :=
  [.setEncryption ring0, .accept 100 6, .data 0 (wire.take 3) false 7, .data 0 (wire.drop 3) true 8]

/-- What node 1 wants to write back. -/
def answer : Bytes := (c1.run cfg1 env X0 T0 acceptOps).out.flatMap (fun e => e.2.2)

/-- Node 0 receives the answer. -/
def joinOps : List (XOp Nat Nat) :=
  dialOps ++ [.pollTransport, .pollAction, .pollAction, .data 0 answer true 9]

/-- The payloads committed for an exchange. -/
def committed (c : Coord Nat Nat) (x : Nat) : List (PayloadEvent Nat Nat) :=
  c.calls.filterMap (fun e => match e with
    | (some y, .streamEvent (.payload ev) _) => if y = x then some ev else none
    | _ => none)

end Verif.Ex
