import Verif.Proof.CoordLeave
import Verif.Example.Coord
/-
C71, C72: a coordinator that has left, and the bounds on what peers can make it hold.
-/
namespace Verif.Props
open Verif Spec Coord
variable {I A : Type} [DecidableEq I] [DecidableEq A] {cfg : Cfg I A} {env : Env I A} {X : XCfg} {T : TEnv}

/-- C71. After `leave` the node opens no connection, accepts none and hands on no received datagram, whatever calls
follow. -/
theorem C71_closed {t0 : Nat} {e0 : Ep I A} (hnew : Ep.tryNew cfg env t0 = .ok e0) (cmp : CmpOptions)
    (pre : List (XOp I A)) (now : Nat) (f : Option Bytes) (post : List (XOp I A)) :
    ∀ o ∈ (((Coord.new e0 cmp).run cfg env X T pre).step cfg env X T (.leave now f)).1.outs cfg env X T post,
      opens o = false :=
  (quit_leave hnew cmp pre now f).outs hnew post

/-- C71. No exchange is added: every exchange held later was held when the node left. -/
theorem C71_no_exchange {t0 : Nat} {e0 : Ep I A} (hnew : Ep.tryNew cfg env t0 = .ok e0) (cmp : CmpOptions)
    (pre : List (XOp I A)) (now : Nat) (f : Option Bytes) (post : List (XOp I A)) (x : Nat)
    (hx : ((Coord.new e0 cmp).run cfg env X T pre).metas.get? x = none) :
    ((Coord.new e0 cmp).run cfg env X T (pre ++ .leave now f :: post)).metas.get? x = none := by
  have e : (Coord.new e0 cmp).run cfg env X T (pre ++ .leave now f :: post) =
      (((Coord.new e0 cmp).run cfg env X T pre).step cfg env X T (.leave now f)).1.run cfg env X T post := by
    simp [Coord.run, List.foldl_append]
  rw [e]
  exact (quit_leave hnew cmp pre now f).held hnew (leave_held hnew cmp pre now f hx) post

/-- Before it leaves, node 1 accepts, dials and takes datagrams in; after `leave`, the same calls bring nothing, though
a connect and a datagram were waiting. -/
example :
    ((Ex.c1.run Ex.cfg1 Ex.env Ex.X0 Ex.T0 []).outs Ex.cfg1 Ex.env Ex.X0 Ex.T0
      [.gossip 100 [1] 5, .startPushPull 100 .join 5, .accept 100 6, .pollAction, .pollIngress]).map opens =
      [false, false, true, true, true] ∧
    ((Ex.c1.run Ex.cfg1 Ex.env Ex.X0 Ex.T0 [.gossip 100 [1] 5, .startPushPull 100 .join 5, .leave 6 none]).outs
      Ex.cfg1 Ex.env Ex.X0 Ex.T0
      [.gossip 100 [1] 5, .startPushPull 100 .join 5, .accept 100 6, .pollAction, .pollIngress]).map opens =
      [false, false, false, false, false] := by decide +kernel

/-- C72. At any time the exchanges held that peers opened are no more than `max_inbound_streams`. -/
theorem C72_inbound (e0 : Ep I A) (cmp : CmpOptions) (ops : List (XOp I A)) {n : Nat} (hn : X.maxInbound = some n) :
    guests ((Coord.new e0 cmp).run cfg env X T ops).metas ≤ n :=
  guests_run e0 cmp ops hn

/-- C72. A connection is refused only if the node has left or the limit is reached. -/
theorem C72_accepts (c : Coord I A) (src : A) (now : Nat) (h : (c.step cfg env X T (.accept src now)).2 = .accepted none) :
    c.ep.isRunning = false ∨ ∃ n, X.maxInbound = some n ∧ n ≤ guests c.metas := by
  simp only [step, accept, XOut.accepted.injEq] at h
  split at h
  · next hr => exact .inl (by simpa using hr)
  · split at h
    · next hm =>
      right
      simp only [Option.any_eq_true, decide_eq_true_eq] at hm
      obtain ⟨n, h1, h2⟩ := hm
      exact ⟨n, h1, h2⟩
    · cases h

/-- C72. At most 8192 received datagrams wait to be handed on. -/
theorem C72_ingress (e0 : Ep I A) (cmp : CmpOptions) (ops : List (XOp I A)) :
    ((Coord.new e0 cmp).run cfg env X T ops).ingress.length ≤ 8192 :=
  ingress_run e0 cmp ops

/-- With a limit of one, a second connection waits until the first is gone. -/
example :
    ((Ex.c1.run Ex.cfg1 Ex.env Ex.X0 Ex.T0 []).outs Ex.cfg1 Ex.env { Ex.X0 with maxInbound := some 1 } Ex.T0
      [.accept 100 6, .accept 101 6, .startPushPull 100 .join 6, .transportError 0 7, .accept 101 8]).map
      (fun o => match o with
        | .accepted r => r
        | _ => none) = [some 0, none, none, none, some 2] := by decide +kernel

end Verif.Props
