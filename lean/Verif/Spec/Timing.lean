import Verif.Model.Coord
/-
Specification vocabulary for the time limits of exchanges.
-/
namespace Verif.Spec
open Coord
variable {I A : Type}

/-- The instant a call is made at, for the calls that carry one. -/
def instant : XOp I A → Option Nat
  | .data _ _ _ now => some now
  | .dialFailed _ now => some now
  | .transportError _ now => some now
  | .accept _ now => some now
  | .startPushPull _ _ now => some now
  | .startReliablePing _ _ _ _ now => some now
  | .startUserMessage _ _ now => some now
  | .timeout now => some now
  | .gossip _ _ now => some now
  | .leave now _ => some now
  | .requeueDial _ _ _ now => some now
  | .direct (.packet _ _ now) => some now
  | .direct (.ping _ now) => some now
  | .direct (.startProbe now) => some now
  | .direct (.startScheduling now) => some now
  | _ => none

/-- The calls that service the exchanges there is work for. -/
def services : XOp I A → Bool
  | .data .. => true
  | .dialFailed .. => true
  | .transportError .. => true
  | .timeout .. => true
  | _ => false

/-- The calls up to and including the first that services the exchanges. -/
def uptoService : List (XOp I A) → List (XOp I A)
  | [] => []
  | op :: ops => if services op then [op] else op :: uptoService ops

end Verif.Spec
