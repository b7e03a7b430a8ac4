import Verif.Proof.CoordTidy
import Verif.Example.Coord
/-
C73, C74: exchanges end in time, and no call makes the coordinator panic.
-/
namespace Verif.Props
open Verif Spec Coord
variable {I A : Type} [DecidableEq I] [DecidableEq A] {cfg : Cfg I A} {env : Env I A} {X : XCfg} {T : TEnv}

/-- C73. Every exchange held has a deadline. The coordinator asks to be woken by then, and a timeout at or after it ends
the exchange, whatever the peer sent. -/
theorem C73_due {t0 : Nat} {e0 : Ep I A} (hnew : Ep.tryNew cfg env t0 = .ok e0) (cmp : CmpOptions)
    (ops : List (XOp I A)) (x : Nat) (hx : ((Coord.new e0 cmp).run cfg env X T ops).metas.get? x ≠ none) :
    ∃ due w, ((Coord.new e0 cmp).run cfg env X T ops).pollTimeout = some w ∧ w ≤ due ∧
      ∀ now, due ≤ now → ((Coord.new e0 cmp).run cfg env X T (ops ++ [.timeout now])).metas.get? x = none := by
  have hs := shape_run (cfg := cfg) (env := env) (X := X) (T := T) e0 cmp ops
  cases hb : ((Coord.new e0 cmp).run cfg env X T ops).conns.get? x with
  | none => exact absurd ((hs.keys x).1 hb) hx
  | some b =>
    obtain ⟨w, h1, h2⟩ := wake (cfg := cfg) (env := env) (X := X) (T := T) e0 cmp ops x hb
    have hend : ∀ now, (b.isTerminal = false → b.deadline ≤ now) →
        ((Coord.new e0 cmp).run cfg env X T (ops ++ [.timeout now])).metas.get? x = none := fun now hd =>
      ((shape_run (cfg := cfg) (env := env) (X := X) (T := T) e0 cmp (ops ++ [XOp.timeout now])).keys x).1
        (timeout_ends (X := X) (T := T) hnew cmp ops now x hb hd)
    cases ht : b.isTerminal with
    | true => exact ⟨w, w, h1, Nat.le_refl _, fun now _ => hend now (fun h => by rw [ht] at h; cases h)⟩
    | false => exact ⟨b.deadline, w, h1, h2 ht, fun now hn => hend now (fun _ => hn)⟩

/-- C73. In a labelled cluster a peer keeps an exchange it opened for no longer than the accept deadline and two stream
timeouts, whatever it sends and when, and whatever calls are made meanwhile. -/
theorem C73_guest {t0 : Nat} {e0 : Ep I A} (hnew : Ep.tryNew cfg env t0 = .ok e0) (cmp : CmpOptions) {l : Bytes}
    (hl : X.label = some l) (hne : l ≠ []) (pre : List (XOp I A)) (src : A) (t x : Nat) (post : List (XOp I A)) (now : Nat)
    (hx : (((Coord.new e0 cmp).run cfg env X T pre).step cfg env X T (.accept src t)).2 = .accepted (some x))
    (hnow : t + X.acceptDeadline + 2 * cfg.streamTimeout ≤ now) :
    ((Coord.new e0 cmp).run cfg env X T (pre ++ .accept src t :: post ++ [.timeout now])).metas.get? x = none := by
  obtain ⟨h1, h2⟩ := accept_due (T := T) e0 cmp pre src t x (t + X.acceptDeadline) hx (Nat.le_refl _)
  have h3 := guest_run (X := X) (T := T) hnew cmp x _ post _ h1 (.inr (fun b hb _ _ => by
    obtain ⟨g1, g2⟩ := h2 b hb
    have hv : (LabelGate.newAcceptor (some l) X.skipLabel).isValidating = true := by
      cases l with
      | nil => exact absurd rfl hne
      | cons a l => rfl
    simp only [Bridge.isHandshaking, g1, g2, hl, Labeled.isHandshaking, Labeled.newAcceptor, hv]
    rfl))
  have h4 := guest_gone (X := X) (T := T) hnew cmp x _ _ h3 now hnow
  simpa using h4

/-- C73. Without a label the same holds counting from the first call after the accept that services the exchanges, if
that comes after the accept deadline. -/
theorem C73_guest_unlabelled {t0 : Nat} {e0 : Ep I A} (hnew : Ep.tryNew cfg env t0 = .ok e0) (cmp : CmpOptions)
    (pre : List (XOp I A)) (src : A) (t x : Nat) (post : List (XOp I A)) (b now : Nat)
    (hx : (((Coord.new e0 cmp).run cfg env X T pre).step cfg env X T (.accept src t)).2 = .accepted (some x))
    (hb : t + X.acceptDeadline ≤ b) (hp : ∀ op ∈ uptoService post, ∀ t', instant op = some t' → t' ≤ b)
    (hnow : b + 2 * cfg.streamTimeout ≤ now) :
    ((Coord.new e0 cmp).run cfg env X T (pre ++ .accept src t :: post ++ [.timeout now])).metas.get? x = none := by
  obtain ⟨h1, _⟩ := accept_due (T := T) e0 cmp pre src t x b hx hb
  have h3 := guest_run (X := X) (T := T) hnew cmp x _ post _ h1 (.inl hp)
  have h4 := guest_gone (X := X) (T := T) hnew cmp x _ _ h3 now hnow
  simpa using h4

/-- Node 1 takes a connection at 6: it is held until its accept deadline passes, and gone with the timeout then. -/
example :
    let c := Ex.c1.run Ex.cfg1 Ex.env Ex.X0 Ex.T0 [.accept 100 6]
    let d := 6 + Ex.X0.acceptDeadline
    (c.metas.get? 0).isSome = true ∧ c.pollTimeout.any (fun w => w ≤ d) = true ∧
    ((c.run Ex.cfg1 Ex.env Ex.X0 Ex.T0 [.timeout (d - 1)]).metas.get? 0).isSome = true ∧
    (c.run Ex.cfg1 Ex.env Ex.X0 Ex.T0 [.timeout d]).metas.get? 0 = none := by decide +kernel

/-- A peer that stalls after the label and half of its request is held past the accept deadline, and not past the
bound. -/
example :
    let ops := [.setEncryption Ex.ring0, .accept 100 6, .data 0 (Ex.wire.take 9) false 7]
    let c := Ex.c1.run Ex.cfg1 Ex.env Ex.X0 Ex.T0 ops
    (match ((Ex.c1.run Ex.cfg1 Ex.env Ex.X0 Ex.T0 [.setEncryption Ex.ring0]).step Ex.cfg1 Ex.env Ex.X0 Ex.T0 (.accept 100 6)).2 with
      | .accepted r => r
      | _ => none) = some 0 ∧
    ((c.run Ex.cfg1 Ex.env Ex.X0 Ex.T0 [.timeout (6 + Ex.X0.acceptDeadline)]).metas.get? 0).isSome = true ∧
    (c.run Ex.cfg1 Ex.env Ex.X0 Ex.T0 [.timeout (6 + Ex.X0.acceptDeadline + 2 * Ex.cfg1.streamTimeout)]).metas.get? 0 = none := by
  decide +kernel

/-- C73. Without a label the bound of `C73_guest` fails: a late call for another exchange gives a connection its stream
long after its accept deadline, though a timeout at the same instant would have ended it. -/
theorem C73_label_needed :
    let X := { Ex.X0 with label := none }
    let late := 6 + X.acceptDeadline + 2 * Ex.cfg1.streamTimeout
    let c := Ex.c1.run Ex.cfg1 Ex.env X Ex.T0 [.accept 100 6]
    (c.run Ex.cfg1 Ex.env X Ex.T0 [.timeout late]).metas.get? 0 = none ∧
    ((c.run Ex.cfg1 Ex.env X Ex.T0 [.data 7 [] false late, .timeout late]).metas.get? 0).isSome = true := by decide +kernel

/-- C74. No history of calls makes the coordinator panic: a bridge that is promoted has a stream with a deadline, a
connection is given a stream only while one is owed to it, and a closed bridge has a stream to commit from. -/
theorem C74_no_panic (e0 : Ep I A) (cmp : CmpOptions) (ops : List (XOp I A)) :
    ((Coord.new e0 cmp).run cfg env X T ops).panicked = false :=
  (fine_run e0 cmp ops).calm

/-- The join goes through all three places: a stream is given to the dialled and to the accepted exchange, and the
answer closes the first. The flag is not idle: a connection nothing is known of would set it. -/
example :
    (Ex.c0.run Ex.cfg Ex.env Ex.X0 Ex.T0 Ex.joinOps).panicked = false ∧
    (Ex.c1.run Ex.cfg1 Ex.env Ex.X0 Ex.T0 Ex.acceptOps).panicked = false ∧
    (Ex.committed (Ex.c0.run Ex.cfg Ex.env Ex.X0 Ex.T0 Ex.joinOps) 0).length = 1 ∧
    (({ Ex.c1 with conns := [(0, Bridge.new 0 (.newAcceptor none false) 9 Ex.cmp0 none 100)] } : Coord Nat Nat).mintOne
      Ex.cfg1 Ex.env 5 0).panicked = true := by decide +kernel

end Verif.Props
