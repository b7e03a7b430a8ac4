import Verif.Proof.CoordTags
import Verif.Spec.Membership
import Verif.Example.Coord
/-
C67, C68: the stream coordinator and its endpoint.

A history is any sequence of calls of the coordinator's interface: bytes and errors of connections, accepted
connections, started exchanges, timers, gossip, settings, and the driver's polls. `calls` is the record of the calls
the coordinator made to its endpoint, each with the exchange it was made for.
-/
namespace Verif.Props
open Verif Spec Coord
variable {I A : Type} [DecidableEq I] [DecidableEq A] {cfg : Cfg I A} {env : Env I A} {X : XCfg} {T : TEnv}

/-- C67. The endpoint is given the content of a reliable exchange only after the connection of that exchange ended, and
only if everything the connection delivered until then is: the label header of this cluster (if it has a label), and
behind it a whole number of units, each wrapped as the coordinator's current settings demand (encrypted under a key of
the current keyring exactly if there is one), that together carry one message which answers what the exchange was
opened for. -/
theorem C67_authorised (e0 : Ep I A) (cmp : CmpOptions) (ops : List (XOp I A)) {o : Option Nat} {ev : PayloadEvent I A}
    {t : Nat} (hm : (o, Ep.Op.streamEvent (.payload ev) t) ∈ ((Coord.new e0 cmp).run cfg env X T ops).calls) :
    ∃ x pre post body plain op s, o = some x ∧ ops = pre ++ post ∧
      (received cfg env X T (Coord.new e0 cmp) x pre).2 = true ∧
      Behind X.label X.skipLabel (received cfg env X T (Coord.new e0 cmp) x pre).1 body ∧
      Units T.B ((Coord.new e0 cmp).run cfg env X T pre).ring cfg.maxStreamFrameSize body plain ∧
      Opened cfg env e0 ((Coord.new e0 cmp).run cfg env X T pre).calls x op s ∧
      Delivers env.CI env.CA s plain ev := by
  obtain ⟨x, rfl⟩ := tagged_run e0 cmp ops o ev t hm
  obtain ⟨pre, post, h1, h2, body, plain, s, h3, h4, ⟨op, h5⟩, h6⟩ := authorised e0 cmp ops hm
  exact ⟨x, pre, post, body, plain, op, s, rfl, h1, h2, h3, h4, h5, h6⟩

/-- A connection that carries nothing under the current keyring commits nothing. -/
example : (Ex.committed (Ex.c1.run Ex.cfg1 Ex.env Ex.X0 Ex.T0 Ex.acceptOps) 0).length = 1 ∧
    (Ex.committed (Ex.c1.run Ex.cfg1 Ex.env Ex.X0 Ex.T0
      [.setEncryption (some (Keyring.new toyKey2)), .accept 100 6, .data 0 Ex.wire true 7]) 0).length = 0 ∧
    (Ex.committed (Ex.c1.run Ex.cfg1 Ex.env Ex.X0 Ex.T0 (Ex.acceptOps.take 3)) 0).length = 0 ∧
    (Ex.committed (Ex.c0.run Ex.cfg Ex.env Ex.X0 Ex.T0 Ex.joinOps) 0).length = 1 := by decide +kernel

/-- C68. The endpoint inside a coordinator is an endpoint after some history of its own calls, namely those the
coordinator made: the coordinator changes it in no other way. So everything that is true of every endpoint after every
history is true of it. -/
theorem C68_endpoint (e0 : Ep I A) (cmp : CmpOptions) (ops : List (XOp I A)) :
    ((Coord.new e0 cmp).run cfg env X T ops).ep =
      e0.run cfg env (((Coord.new e0 cmp).run cfg env X T ops).calls.map Prod.snd) :=
  (shape_run e0 cmp ops).ep

/-- C68. -/
theorem C68_reachable {now : Nat} {e0 : Ep I A} (h0 : Ep.tryNew cfg env now = .ok e0) (cmp : CmpOptions)
    (ops : List (XOp I A)) : Reachable cfg env ((Coord.new e0 cmp).run cfg env X T ops).ep :=
  ⟨now, e0, _, h0, C68_endpoint e0 cmp ops⟩

/-- The record is not empty: joining made these calls. -/
example : (Ex.c0.run Ex.cfg Ex.env Ex.X0 Ex.T0 Ex.joinOps).calls.length = 8 ∧
    (Ex.c0.run Ex.cfg Ex.env Ex.X0 Ex.T0 Ex.joinOps).ep.core.members.length = 2 := by decide +kernel

end Verif.Props
