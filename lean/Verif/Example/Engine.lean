import Verif.Model.Engine
import Verif.Example.Coord
/-
A toy network stack and an engine on it, used by the examples beside the theorems: node 0 joins through node 1.
-/
namespace Verif.Ex
open Verif Coord Engine

/-- One socket of the toy stack. -/
structure Sock where
  live : Bool := false
  up : Bool := false
  peer : Option Nat := none
  rx : Bytes := []
  over : Bool := false
  room : Nat := 1000
  deriving DecidableEq, Repr

/-- The stack: a socket for each handle. -/
abbrev Stack := Nat → Sock

/-- One socket is replaced. -/
def Stack.set (s : Stack) (c : Nat) (k : Sock) : Stack := fun d => if d = c then k else s d

/-- The toy stack: a connection to address 102 fails at once; a socket takes as many bytes as it has room for. -/
def toyIo : SocketIo Stack Nat Nat where
  reuseReady := fun s c => !(s c).live
  listen := fun s c => s.set c { live := true }
  acceptedPeer := fun s c => (s c).peer
  connect := fun s c peer _ => if peer = 102 then (s, false) else (s.set c { live := true }, true)
  maySend := fun s c => (s c).up
  isOpen := fun s c => (s c).live
  recv := fun s c => (s.set c { s c with rx := [] }, (s c).rx)
  recvFinished := fun s c => (s c).over && (s c).rx.isEmpty
  send := fun s c b => (s.set c { s c with room := (s c).room - b.length }, min (s c).room b.length)
  sendQueue := fun _ _ => 0
  close := fun s c => s.set c { s c with up := false }
  abort := fun s c => s.set c {}

/-- Address 103 is blocked, address 0 cannot be reached. -/
def E0 : EEnv Stack Nat Nat where
  io := toyIo
  closeTimeout := 5 * MS
  blocked := fun a => a = 103
  routable := fun a => a ≠ 0
  checksum := none
  nonce := fun _ => List.replicate 12 7
  order := fun _ l => l
  order_perm := fun _ l => List.Perm.refl l
  orderC := fun _ l => l
  orderC_perm := fun _ l => List.Perm.refl l
  fuel := 10

/-- The engine of node 0: sockets 1 and 2 free, socket 0 listening. -/
def g0 : Engine Nat Nat Nat Stack :=
  Engine.new cfg env X0 T0 Ex.e0 cmp0 cmp0 ring0 (Stack.set (fun _ => {}) 0 { live := true }) [1, 2] (some 0)

/-- Socket 0 listens, socket 2 is as given. -/
def world (k : Sock) : Stack := Stack.set (Stack.set (fun _ => {}) 0 { live := true }) 2 k

/-- Node 0 joins: it dials; the connection comes up, and takes three bytes, then the rest; the answer arrives; the peer
closes. -/
def joinEngine : List (EOp Nat Nat Nat Stack) :=
  [.join [101], .pump 5 [],
   .world (world { live := true, up := true, room := 3 }), .pump 6 [],
   .world (world { live := true, up := true }), .pump 7 [],
   .world (world { live := true, rx := answer, over := true }), .pump 9 [],
   .world (world {}), .pump 10 []]

/-- What the engine did, without the states of the stack. -/
def acts (g : Engine Nat Nat Nat Stack) : List (Act Nat Nat) := g.log.map Prod.snd

/-- The state after the first calls of the join. -/
def joined (n : Nat) : Engine Nat Nat Nat Stack := g0.run cfg env X0 T0 E0 (joinEngine.take n)

end Verif.Ex
