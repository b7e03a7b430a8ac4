import Verif.Proof.CoordLeave
import Verif.Proof.Claims
/-
Only a call to `leave` takes the endpoint out of its running state.
-/
namespace Verif.Coord
open Verif Spec
variable {I A : Type} [DecidableEq I] [DecidableEq A]
variable {cfg : Cfg I A} {env : Env I A} {X : XCfg} {T : TEnv} {N : Nat → Bridge I A → Prop} {L : Prop}

/-- No call of the endpoint between the two states is `leave`. -/
def Stay (c c' : Coord I A) : Prop :=
  ∃ l, c'.calls = c.calls ++ l ∧ ∀ e ∈ l, ∀ now f, e.2 ≠ .leave now f

omit [DecidableEq I] [DecidableEq A] in
theorem Stay.same {c c' : Coord I A} (h : c'.calls = c.calls) : Stay c c' := ⟨[], by simp [h], fun _ h => by cases h⟩

omit [DecidableEq I] [DecidableEq A] in
theorem Stay.trans {a b c : Coord I A} (h : Stay a b) (g : Stay b c) : Stay a c := by
  obtain ⟨l, hl, hl2⟩ := h
  obtain ⟨k, hk, hk2⟩ := g
  refine ⟨l ++ k, by rw [hk, hl, List.append_assoc], fun e he => ?_⟩
  rcases List.mem_append.1 he with he | he
  · exact hl2 e he
  · exact hk2 e he

omit [DecidableEq I] [DecidableEq A] in
theorem Stay.one {c c' : Coord I A} (x : Option Nat) (op : Ep.Op I A) (h : c'.calls = c.calls ++ [(x, op)])
    (ho : ∀ now f, op ≠ .leave now f) : Stay c c' :=
  ⟨_, h, fun e he => by rw [List.mem_singleton] at he; subst he; exact ho⟩

theorem Stay.complete (c : Coord I A) (x : Nat) (m : Option (XMeta A)) (ok : Bool) :
    Stay c (c.complete cfg env x m ok) := by
  unfold Coord.complete
  split
  · exact .same rfl
  · split
    · exact .same rfl
    · exact .one _ _ rfl (fun _ _ h => by cases h)

theorem Stay.reap (c : Coord I A) (x : Nat) (b : Bridge I A) : Stay c (c.reap cfg env x b) := by
  unfold Coord.reap
  simp only []
  have h1 : Stay c (if b.isFailed = true then c.purge x else (c.collect x b).1) := by
    split
    · exact .same rfl
    · unfold Coord.collect
      split
      · exact .same rfl
      · split <;> exact .same rfl
  refine h1.trans ?_
  generalize (if b.isFailed = true then c.purge x else (c.collect x b).1) = c1
  have h2 : Stay c1 { c1 with conns := c1.conns.erase x, metas := c1.metas.erase x } := .same rfl
  have h3 := h2.trans (Stay.complete (cfg := cfg) (env := env) _ x (c1.metas.get? x) (!b.isFailed))
  split
  · next sid _ =>
    refine h3.trans (Stay.one (some x) (.dialFailed sid) ?_ (fun _ _ h => by cases h))
    rfl
  · exact h3.trans (.same rfl)

theorem Stay.move {c c' : Coord I A} (hm : Move cfg env X T N L c c') (hL : ¬ L) : Stay c c' := by
  cases hm with
  | book s => exact .same s.calls
  | call x op hp hl => exact .one x op rfl (fun now f h => hL (hl now f h))
  | start op sid kind hs => exact .one none op rfl (fun now f h => by subst h; cases hs)
  | bridge => exact .same rfl
  | commit now => exact .one _ _ rfl (fun _ _ h => by cases h)
  | @shutdown x b =>
    unfold maybeShutdown
    split
    · exact .same rfl
    · split
      · exact .same rfl
      · split <;> exact .same rfl
  | @collect x b =>
    refine .same ?_
    show (c.collect x b).1.calls = c.calls
    unfold Coord.collect
    split
    · rfl
    · split <;> rfl
  | @reap x b => exact .reap c x b
  | dial now d hr =>
    rcases dialOne_cases (cfg := cfg) (env := env) (X := X) now c d with ⟨e, _⟩ | ⟨e, _⟩
    · rw [e]; exact .one none (.dialFailed d.1) rfl (fun _ _ h => by cases h)
    · rw [e]; exact .same rfl
  | @mintOk x b m mint s now =>
    exact .one (some x) (mintOp mint now) rfl (fun _ _ h => by cases mint <;> cases h)
  | @mintOut x b m sid now =>
    refine Stay.trans (b := (c.takeMint cfg env x m (.outbound sid) now).1)
      (.one (some x) (mintOp (.outbound sid) now) rfl (fun _ _ h => by cases h)) ?_
    generalize (c.takeMint cfg env x m (.outbound sid) now).1 = c1
    unfold retireDial
    simp only []
    refine Stay.trans (b := { (c1.purge x).purgeConnect x with conns := ((c1.purge x).purgeConnect x).conns.erase x, metas := ((c1.purge x).purgeConnect x).metas.erase x })
      (.same rfl) ?_
    exact (Stay.complete (cfg := cfg) (env := env) _ x (((c1.purge x).purgeConnect x).metas.get? x) false).trans (.same rfl)
  | @mintIn x b m peer now =>
    exact .one (some x) (mintOp (.inbound peer) now) rfl (fun _ _ h => by cases h)
  | cancel => exact .same rfl

theorem Stay.first {c c1 : Coord I A} {op : XOp I A} (hf : First cfg env X T c op c1) : Stay c c1 := by
  cases hf with
  | plain s => exact .same s.calls
  | encrypt ring =>
    refine .same ?_
    unfold Coord.setEncryption
    split
    · rfl
    · have : ∀ (l : List Nat) (c : Coord I A), (l.foldl abortFailed c).calls = c.calls := by
        intro l
        induction l with
        | nil => intro c; rfl
        | cons a l ih => intro c; rw [List.foldl_cons, ih]; rfl
      exact this _ _
  | popAction =>
    refine .same ?_
    unfold pollAction
    split
    · rfl
    · split <;> rfl
  | accept src now x =>
    refine .same ?_
    unfold Coord.accept
    simp only []
    split
    · rfl
    · split <;> rfl
  | _ => exact .same rfl

/-- A call other than `leave` leaves the endpoint running. -/
theorem step_running {t0 : Nat} {e0 : Ep I A} (hnew : Ep.tryNew cfg env t0 = .ok e0) {c : Coord I A}
    (h : Shape cfg env e0 c) (op : XOp I A) (h' : Shape cfg env e0 (c.step cfg env X T op).1)
    (ho : ∀ now f, op ≠ .leave now f) (hr : c.ep.isRunning = true) :
    (c.step cfg env X T op).1.ep.isRunning = true := by
  have hs : Stay c (c.step cfg env X T op).1 := by
    obtain ⟨c1, h1, h2⟩ := step_moves (cfg := cfg) (env := env) (X := X) (T := T) c op
    exact h2.inv (P := Stay c) (fun hm hc => hc.trans (.move hm (fun ⟨now, f, e⟩ => ho now f e))) (.first h1)
  obtain ⟨l, hl, hl2⟩ := hs
  rw [h'.ep, hl, List.map_append, Ep.run_append, ← h.ep]
  have hre : Reachable cfg env c.ep := ⟨t0, e0, _, hnew, h.ep⟩
  revert hre hr
  generalize c.ep = e
  clear hl
  intro hr hre
  induction l generalizing e with
  | nil => exact hr
  | cons a l ih =>
    refine ih (fun e he => hl2 e (List.mem_cons_of_mem _ he)) _ ?_ (Ep.reachable_step hre a.2)
    have h0 : e.core.lifecycle = .running := by simpa [Ep.isRunning] using hr
    simpa [Ep.isRunning] using Ep.step_running (env := env) (Ep.reachable_good hre) h0 a.2 (hl2 a (List.mem_cons_self ..))

/-- An endpoint that is not running stays so. -/
theorem step_stopped {t0 : Nat} {e0 : Ep I A} (hnew : Ep.tryNew cfg env t0 = .ok e0) {c : Coord I A}
    (h : Shape cfg env e0 c) (op : XOp I A) (hr : c.ep.isRunning = false) :
    (c.step cfg env X T op).1.ep.isRunning = false := by
  have := run_inv (cfg := cfg) (env := env) (X := X) (T := T)
    (P := fun c => Shape cfg env e0 c ∧ c.ep.isRunning = false)
    (fun hf h => have s := h.1.first hf (order_mem T); ⟨s, not_running hnew h.1 s (.first hf) h.2⟩)
    (fun hm h => have s := h.1.move hm; ⟨s, not_running hnew h.1 s (.move hm) h.2⟩) ⟨h, hr⟩ [op]
  exact this.2

end Verif.Coord
