import Verif.Proof.CoordLife
import Verif.Example.Coord
/-
C69, C70: what becomes of a reliable exchange.

A history is any sequence of calls of the coordinator's interface (see Props/Coord). `told` lists what the endpoint was
told of one exchange, in order: the payloads it brought and the `ExchangeCompleted` reports about it.
-/
namespace Verif.Props
open Verif Spec Coord
variable {I A : Type} [DecidableEq I] [DecidableEq A] {cfg : Cfg I A} {env : Env I A} {X : XCfg} {T : TEnv}

/-- C69. Whatever happens to an exchange, it brings at most one payload and is reported at most once, and after its
report it brings nothing more. -/
theorem C69_once {t0 : Nat} {e0 : Ep I A} (hnew : Ep.tryNew cfg env t0 = .ok e0) (cmp : CmpOptions)
    (ops : List (XOp I A)) (x : Nat) :
    ∃ (p : Option (PayloadEvent I A)) (r : Option (Completion A)),
      told ((Coord.new e0 cmp).run cfg env X T ops).calls x = p.toList.map .payload ++ r.toList.map .report := by
  have h := life_run (X := X) (T := T) hnew cmp ops x
  have e : told ((Coord.new e0 cmp).run cfg env X T ops).calls x =
    (((Coord.new e0 cmp).run cfg env X T ops).view x).log.filterMap toldOf := rfl
  rw [e]
  obtain ⟨_, h⟩ := h
  generalize ((Coord.new e0 cmp).run cfg env X T ops).view x = v at h
  cases hb : v.br with
  | none => rw [hb] at h; obtain ⟨p, r, h1, _⟩ := h; exact ⟨p, r, h1⟩
  | some b =>
    rw [hb] at h
    by_cases hs : b.stream = none
    · exact ⟨none, none, h.1.1 hs⟩
    · obtain ⟨p0, ps, g1, g2, _⟩ := h.1.2 hs
      obtain ⟨p, hp⟩ := one_payload g2.cnt.1
      exact ⟨p, none, by simp [g1, hp]⟩

/-- C69. The report of an exchange carries its own id and comes when the coordinator holds it no longer. A push/pull or
a reliable ping is reported as succeeded only if its answer was handed to the endpoint before; a user message brings
nothing back. -/
theorem C69_truthful {t0 : Nat} {e0 : Ep I A} (hnew : Ep.tryNew cfg env t0 = .ok e0) (cmp : CmpOptions)
    (ops : List (XOp I A)) (x : Nat) {r : Completion A}
    (hr : Told.report r ∈ told ((Coord.new e0 cmp).run cfg env X T ops).calls x) :
    r.exchange = x ∧ ((Coord.new e0 cmp).run cfg env X T ops).conns.get? x = none ∧
    (r.ok = true → r.kind ≠ .userMessage → ∃ ev, AnswerTo r.kind ev ∧
      told ((Coord.new e0 cmp).run cfg env X T ops).calls x = [.payload ev, .report r]) ∧
    (r.kind = .userMessage → told ((Coord.new e0 cmp).run cfg env X T ops).calls x = [.report r]) := by
  have h := life_run (X := X) (T := T) hnew cmp ops x
  have e : told ((Coord.new e0 cmp).run cfg env X T ops).calls x =
    (((Coord.new e0 cmp).run cfg env X T ops).view x).log.filterMap toldOf := rfl
  have e2 : ((Coord.new e0 cmp).run cfg env X T ops).conns.get? x =
    (((Coord.new e0 cmp).run cfg env X T ops).view x).br := rfl
  rw [e] at hr ⊢
  rw [e2]
  obtain ⟨_, h⟩ := h
  generalize ((Coord.new e0 cmp).run cfg env X T ops).view x = v at h hr
  cases hb : v.br with
  | none =>
    rw [hb] at h
    obtain ⟨p, r', h1, h2⟩ := h
    rw [h1] at hr
    have hr' : r' = some r := by
      cases p <;> cases r' <;> simp at hr <;> simp [hr]
    subst hr'
    obtain ⟨g1, g2, g3⟩ := h2 r rfl
    refine ⟨g1, rfl, fun ho hk => ?_, fun hk => ?_⟩
    · obtain ⟨ev, hp, ha⟩ := g2 ho hk
      exact ⟨ev, ha, by rw [h1, hp]; rfl⟩
    · rw [h1, g3 hk]; rfl
  | some b =>
    exfalso
    rw [hb] at h
    by_cases hs : b.stream = none
    · rw [h.1.1 hs] at hr; cases hr
    · obtain ⟨p0, ps, g1, _⟩ := h.1.2 hs
      rw [g1] at hr
      simp at hr

/-- Joining succeeds and is reported so; a connection that breaks, or an answer under another key, is reported as a
failure without a payload. -/
example : (told (Ex.c0.run Ex.cfg Ex.env Ex.X0 Ex.T0 Ex.joinOps).calls 0).map
      (fun t => match t with | .payload _ => none | .report r => some (r.exchange, r.ok, r.kind)) =
      [none, some (0, true, .pushPull)] ∧
    (told (Ex.c0.run Ex.cfg Ex.env Ex.X0 Ex.T0 (Ex.dialOps ++ [.transportError 0 9])).calls 0).map
      (fun t => match t with | .payload _ => none | .report r => some (r.exchange, r.ok, r.kind)) =
      [some (0, false, .pushPull)] ∧
    (told (Ex.c0.run Ex.cfg Ex.env Ex.X0 Ex.T0 (Ex.dialOps ++
        [.pollTransport, .data 0 (Ex.answer.take 40) true 9])).calls 0).map
      (fun t => match t with | .payload _ => none | .report r => some (r.exchange, r.ok, r.kind)) =
      [some (0, false, .pushPull)] := by decide +kernel

/-- C70. An exchange the application started does not vanish silently: if the coordinator holds it before a call other
than `leave` and no longer holds it afterwards, its completion was reported, with its peer and its kind. -/
theorem C70_reported {t0 : Nat} {e0 : Ep I A} (hnew : Ep.tryNew cfg env t0 = .ok e0) (cmp : CmpOptions)
    (ops : List (XOp I A)) (op : XOp I A) (hop : ∀ now f, op ≠ .leave now f) (x : Nat) {m : XMeta A} {kind : ExKind}
    (hm : ((Coord.new e0 cmp).run cfg env X T ops).metas.get? x = some m) (hk : m.kind = some kind)
    (hgone : ((Coord.new e0 cmp).run cfg env X T (ops ++ [op])).metas.get? x = none) :
    ∃ ok, Told.report ⟨x, m.peer, ok, kind⟩ ∈ told ((Coord.new e0 cmp).run cfg env X T (ops ++ [op])).calls x :=
  reported hnew cmp ops op hop x hm hk hgone

/-- The join of the example is held after the dial, with its kind, and gone after the answer. -/
example : ((Ex.c0.run Ex.cfg Ex.env Ex.X0 Ex.T0 Ex.dialOps).metas.get? 0).map (fun m => (m.peer, m.kind)) =
      some (101, some .pushPull) ∧
    (Ex.c0.run Ex.cfg Ex.env Ex.X0 Ex.T0 Ex.joinOps).metas.get? 0 = none := by decide +kernel

/-- C70. `leave` is excluded for a reason: it drops a dialled exchange whose request was not handed out yet without any
report. -/
theorem C70_leave_unreported :
    ((Ex.c0.run Ex.cfg Ex.env Ex.X0 Ex.T0 Ex.dialOps).metas.get? 0).map (fun m => m.kind) = some (some .pushPull) ∧
    (Ex.c0.run Ex.cfg Ex.env Ex.X0 Ex.T0 (Ex.dialOps ++ [.leave 6 none])).metas.get? 0 = none ∧
    (told (Ex.c0.run Ex.cfg Ex.env Ex.X0 Ex.T0 (Ex.dialOps ++ [.leave 6 none])).calls 0).length = 0 := by
  decide +kernel

end Verif.Props
