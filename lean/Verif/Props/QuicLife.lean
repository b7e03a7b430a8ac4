import Verif.Proof.QuicLife
import Verif.Example.Quic
/-
C101: what becomes of an exchange over QUIC.

A history is any sequence of calls of the node's interface (see Props/Quic). `told` lists what the endpoint was told of
one exchange, in order: the payloads it brought and the `ExchangeCompleted` reports about it.
-/
namespace Verif.Props
open Verif Spec Quic
variable {I A : Type} [DecidableEq I] [DecidableEq A] {Q : Quinn A}
variable {cfg : Cfg I A} {env : Env I A} {X : QCfg} {T : TEnv}

/-- C101. Whatever happens to an exchange, it brings at most one payload and is reported at most once, and after its
report it brings nothing more. -/
theorem C101_once (hS : Q.Sound) {t0 : Nat} {e0 : Ep I A} (hnew : Ep.tryNew cfg env t0 = .ok e0) (q : Q.E)
    (cmp : CmpOptions) (ops : List (Quic.QOp I A)) (x : Nat) :
    ∃ (p : Option (PayloadEvent I A)) (r : Option (Completion A)),
      told ((Quic.new e0 q cmp : Quic I Q).run cfg env X T ops).calls x = p.toList.map .payload ++ r.toList.map .report := by
  have h := Quic.life_run (X := X) (T := T) hS hnew q cmp ops
  generalize (Quic.new e0 q cmp : Quic I Q).run cfg env X T ops = s at h
  cases hb : s.bridges.get? x with
  | none => obtain ⟨p, r, h1, _⟩ := h.over x hb; exact ⟨p, r, h1⟩
  | some b =>
    obtain ⟨p0, ps, g1, g2, _⟩ := h.under x b hb
    obtain ⟨p, hp⟩ := Coord.one_payload g2.cnt.1
    exact ⟨p, none, by simp [g1, hp]⟩

/-- C101. The report of an exchange carries its own id and comes when no stream carries the exchange any longer. A
push/pull or a reliable ping is reported as succeeded only if its answer was handed to the endpoint before; a user
message brings nothing back. -/
theorem C101_truthful (hS : Q.Sound) {t0 : Nat} {e0 : Ep I A} (hnew : Ep.tryNew cfg env t0 = .ok e0) (q : Q.E)
    (cmp : CmpOptions) (ops : List (Quic.QOp I A)) (x : Nat) {r : Completion A}
    (hr : Told.report r ∈ told ((Quic.new e0 q cmp : Quic I Q).run cfg env X T ops).calls x) :
    let s := (Quic.new e0 q cmp : Quic I Q).run cfg env X T ops
    r.exchange = x ∧ s.bridges.get? x = none ∧
    (r.ok = true → r.kind ≠ .userMessage → ∃ ev, AnswerTo r.kind ev ∧ told s.calls x = [.payload ev, .report r]) ∧
    (r.kind = .userMessage → told s.calls x = [.report r]) := by
  intro s
  have h : LifeInv cfg env X s := Quic.life_run (X := X) (T := T) hS hnew q cmp ops
  have hr : Told.report r ∈ told s.calls x := hr
  cases hb : s.bridges.get? x with
  | none =>
    obtain ⟨p, r', h1, h2⟩ := h.over x hb
    rw [h1] at hr
    have hr' : r' = some r := by
      cases p <;> cases r' <;> simp at hr <;> simp [hr]
    subst hr'
    obtain ⟨g1, g2, g3⟩ := h2 r rfl
    refine ⟨g1, rfl, fun ho hk => ?_, fun hk => ?_⟩
    · obtain ⟨ev, hp, ha⟩ := g2 ho hk
      exact ⟨ev, ha, by rw [h1, hp]; rfl⟩
    · rw [h1, g3 hk]; rfl
  | some b =>
    exfalso
    obtain ⟨p0, ps, g1, _⟩ := h.under x b hb
    rw [g1] at hr
    simp at hr

/-- Joining succeeds and is reported so, after the answer; a stream that is reset is reported as a failure without a
payload. -/
example : (told (Ex.q0.run Ex.cfg Ex.env Ex.QX0 Ex.T0 Ex.qJoinOps).calls 1).map
      (fun t => match t with | .payload _ => none | .report r => some (r.exchange, r.ok, r.kind)) =
      [none, some (1, true, .pushPull)] ∧
    (told (Ex.q0.run Ex.cfg Ex.env Ex.QX0 Ex.T0 (Ex.qDialOps ++ [.udp 101 [0x40, 1, 5] 8])).calls 1).map
      (fun t => match t with | .payload _ => none | .report r => some (r.exchange, r.ok, r.kind)) =
      [some (1, false, .pushPull)] := by decide +kernel

end Verif.Props
