import Verif.Spec.Probe
/-
Specification vocabulary for the fairness of probing.
-/
namespace Verif.Spec
open Verif Ep
variable {I A : Type} [DecidableEq I] [DecidableEq A]

/-- The states a node goes through when it is in state `e` and the calls `ops` are made. -/
def states (cfg : Cfg I A) (env : Env I A) (e : Ep I A) : List (Ep.Op I A) → List (Ep I A)
  | [] => [e]
  | op :: ops => e :: states cfg env (e.step cfg env op).1 ops

/-- The call makes a running node choose a member to probe: the application asks for it, or the timers are served
and the probe timer is due. -/
def isRound (e : Ep I A) (op : Ep.Op I A) : Bool :=
  e.core.lifecycle = .running &&
    match op with
    | .startProbe _ => true
    | .timeout now => match e.nextProbe with
      | some d => d ≤ now
      | none => false
    | _ => false

/-- How many of the calls are probe rounds. -/
def rounds (cfg : Cfg I A) (env : Env I A) (e : Ep I A) : List (Ep.Op I A) → Nat
  | [] => 0
  | op :: ops => (if isRound e op then 1 else 0) + rounds cfg env (e.step cfg env op).1 ops

/-- The member with this id is in the table, is not the local node, and counts as alive or suspected. -/
def LiveRemote (cfg : Cfg I A) (e : Ep I A) (id : I) : Prop :=
  id ≠ cfg.localId ∧ ∃ m, member e id = some m ∧ (m.state = .alive ∨ m.state = .suspect)

/-- The last sequence number given out belongs to a failure-detection probe of this member that started at `now`. -/
def Probing (e : Ep I A) (id : I) (now : Nat) : Prop :=
  ∃ p, pending e e.net.nextSeq = some p ∧ p.kind = .detection ∧ p.target.id = id ∧ p.sentAt = now

/-- During the calls a probe round makes the node probe this member. -/
def ProbedDuring (cfg : Cfg I A) (env : Env I A) (e : Ep I A) (ops : List (Ep.Op I A)) (id : I) : Prop :=
  ∃ before op after now, ops = before ++ op :: after ∧ isRound (e.run cfg env before) op = true ∧
    op.time? = some now ∧ Probing (e.run cfg env (before ++ [op])) id now

end Verif.Spec
