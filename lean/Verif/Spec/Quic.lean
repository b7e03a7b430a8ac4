import Verif.Model.Quic
import Verif.Spec.Report
/-
Specification vocabulary for the QUIC node. A history is any sequence of calls of its interface.
-/
namespace Verif.Spec
variable {I A : Type} {Q : Quinn A}

/-- The datagram a call handed to the application. -/
def passedOn : Quic.QOp I A × Quic.QOut I A → Option (A × Bytes)
  | (.pollIngress, .datagram r) => r
  | _ => none

/-- The datagrams the calls of a history handed to the application, in order. -/
def passedOut (ops : List (Quic.QOp I A)) (outs : List (Quic.QOut I A)) : List (A × Bytes) :=
  (ops.zip outs).filterMap passedOn

/-- The number of elements that come from `p`. -/
def numFrom [DecidableEq A] (l : List (A × Bytes)) (p : A) : Nat := (l.filter (fun e => e.1 = p)).length

/-- The dials that wait: for a connection, for a free stream, or to be tried at all. -/
def waitingDials (s : Quic I Q) : List (QDial A) := s.dials ++ s.parked.flatMap (·.2)

/-- The number of user messages to `p` among them. -/
def waitingMessages [DecidableEq A] (s : Quic I Q) (p : A) : Nat :=
  ((waitingDials s).filter (fun d => d.kind = .userMessage ∧ d.peer = p)).length

/-- The number of those the application started itself. The node keeps the kind of every exchange the application
started until its end. -/
def startedMessages [DecidableEq A] (s : Quic I Q) (p : A) : Nat :=
  ((waitingDials s).filter (fun d => decide (d.kind = .userMessage ∧ d.peer = p) && (s.kinds.get? d.id).isSome)).length

/-- Exchange `x` was started by the application, goes to `p` and is still under way: its dial waits, or it runs over
a stream. -/
def Underway (s : Quic I Q) (x : Nat) (p : A) (k : ExKind) : Prop :=
  s.kinds.get? x = some k ∧ s.peers.get? x = some p ∧
  ((∃ d ∈ waitingDials s, d.id = x ∧ d.peer = p ∧ d.kind = k) ∨
   (∃ b, s.bridges.get? x = some b ∧ b.stream.id = x ∧ b.stream.peer = p))

/-- The completion of exchange `x` was reported. -/
def Reported (s : Quic I Q) (x : Nat) (r : Completion A) : Prop := Told.report r ∈ told s.calls x

/-- The reports among what was told of an exchange. -/
def reportsOf (l : List (Told I A)) : List (Completion A) :=
  l.filterMap (fun t => match t with | .report r => some r | .payload _ => none)

/-- The push/pulls and user messages the application started that run over connection `ch`. -/
def startedOn (s : Quic I Q) (ch : Nat) : Nat :=
  (s.bridges.filter (fun e => decide (e.2.ch = ch) &&
    (s.kinds.get? e.1 == some .pushPull || s.kinds.get? e.1 == some .userMessage))).length

/-- The exchanges opened by peers that the node holds. -/
def acceptedStreams (s : Quic I Q) : Nat := (s.bridges.filter (fun e => !e.2.eager)).length

end Verif.Spec
