import Verif.Model.Coord
/-
Specification vocabulary for what becomes of an exchange.
-/
namespace Verif.Spec

/-- What an endpoint can be told of an exchange: the payload it brought, and how it ended. -/
inductive Told (I A : Type) where
  | payload (ev : PayloadEvent I A)
  | report (r : Completion A)

/-- What one endpoint call tells. -/
def toldOf {I A : Type} : Ep.Op I A → Option (Told I A)
  | .streamEvent (.payload ev) _ => some (.payload ev)
  | .external (some r) => some (.report r)
  | _ => none

/-- What the endpoint was told of exchange `x`, in order. -/
def told {I A : Type} (calls : List (Option Nat × Ep.Op I A)) (x : Nat) : List (Told I A) :=
  ((calls.filter (fun e => e.1 = some x)).map Prod.snd).filterMap toldOf

/-- The payload answers a request of this kind. -/
def AnswerTo {I A : Type} : ExKind → PayloadEvent I A → Prop
  | .pushPull, .pushPullReply .. => True
  | .reliablePing, .reliablePingAcked .. => True
  | _, _ => False

/-- The result of a call that lets something in or out: the driver is told to open a connection, an offered connection
is accepted, or a received datagram is handed on. -/
def opens {I A : Type} : Coord.XOut I A → Bool
  | .action (some (.connect ..)) => true
  | .accepted (some _) => true
  | .datagram (some _) => true
  | _ => false

/-- The number of exchanges a coordinator holds that were opened by peers. -/
def guests {A : Type} (m : Map Nat (XMeta A)) : Nat := (m.filter (fun e => !e.2.outbound)).length

end Verif.Spec
