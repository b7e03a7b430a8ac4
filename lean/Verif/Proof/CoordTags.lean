import Verif.Proof.CoordAuth
/-
Payloads reach the endpoint only through exchanges.
-/
namespace Verif.Coord
variable {I A : Type} [DecidableEq I] [DecidableEq A] {cfg : Cfg I A} {env : Env I A} {X : XCfg} {T : TEnv} {N : Nat → Bridge I A → Prop} {L : Prop}

/-- Every payload handed to the endpoint is tagged with an exchange. -/
def Tagged (calls : List (Option Nat × Ep.Op I A)) : Prop :=
  ∀ o ev t, (o, Ep.Op.streamEvent (.payload ev) t) ∈ calls → ∃ x, o = some x

theorem Tagged.snoc {calls l : List (Option Nat × Ep.Op I A)} (h : Tagged calls) (hl : Tagged l) : Tagged (calls ++ l) :=
  fun o ev t hm => (List.mem_append.1 hm).elim (h o ev t) (hl o ev t)

theorem Tagged.some (x : Nat) (op : Ep.Op I A) : Tagged [(some x, op)] := by
  intro o ev t hm
  simp only [List.mem_singleton, Prod.mk.injEq] at hm
  exact ⟨x, hm.1⟩

theorem Tagged.plain (o : Option Nat) {op : Ep.Op I A} (h : Plain op) : Tagged [(o, op)] := by
  intro o' ev t hm
  simp only [List.mem_singleton, Prod.mk.injEq] at hm
  exact absurd hm.2.symm (plain_not_payload h ev t)

theorem Tagged.complete {c : Coord I A} (h : Tagged c.calls) (x : Nat) (m : Option (XMeta A)) (ok : Bool) :
    Tagged (c.complete cfg env x m ok).calls := by
  unfold Coord.complete
  split
  · exact h
  · split
    · exact h
    · exact h.snoc (.some _ _)

theorem Tagged.move {c c' : Coord I A} (hm : Move cfg env X T N L c c') (h : Tagged c.calls) : Tagged c'.calls := by
  cases hm with
  | book s => rw [s.calls]; exact h
  | call x op hp => exact h.snoc (.plain x hp)
  | start op sid kind hs => exact h.snoc (.plain none hs.plain)
  | bridge => exact h
  | commit now => exact h.snoc (.some _ _)
  | @shutdown x b =>
    unfold maybeShutdown
    split
    · exact h
    · split
      · exact h
      · split <;> exact h
  | @collect x b => show Tagged (c.collect x b).1.calls; rw [(collect_calls c x b).1]; exact h
  | @reap x b =>
    have h1 : Tagged (if b.isFailed = true then c.purge x else (c.collect x b).1).calls := by
      split
      · exact h
      · rw [(collect_calls c x b).1]; exact h
    unfold Coord.reap
    simp only []
    generalize (if b.isFailed = true then c.purge x else (c.collect x b).1) = c1 at h1
    have h2 := Tagged.complete (cfg := cfg) (env := env) (c := { c1 with conns := c1.conns.erase x, metas := c1.metas.erase x })
      h1 x (c1.metas.get? x) (!b.isFailed)
    split
    · exact h2.snoc (.some _ _)
    · exact h2
  | dial now d hr =>
    rcases dialOne_cases (cfg := cfg) (env := env) (X := X) now c d with ⟨e, _⟩ | ⟨e, _⟩
    · rw [e]; exact h.snoc (.plain none (op := .dialFailed d.1) trivial)
    · rw [e]; exact h
  | mintOk now => exact h.snoc (.some _ _)
  | mintOut now => exact Tagged.complete (h.snoc (.some _ _)) _ _ _
  | mintIn now => exact h.snoc (.some _ _)
  | cancel => exact h

theorem Tagged.first {c c1 : Coord I A} {op : XOp I A} (hf : First cfg env X T c op c1) (h : Tagged c.calls) :
    Tagged c1.calls := by
  cases hf with
  | plain s _ => rw [s.calls]; exact h
  | encrypt ring' =>
    unfold Coord.setEncryption
    split
    · exact h
    · simp only []
      rw [(abortFailed_fold _ _).2.1]; exact h
  | popAction =>
    unfold pollAction
    split
    · exact h
    · split <;> exact h
  | accept src now x hx =>
    unfold Coord.accept
    simp only []
    split
    · exact h
    · split <;> exact h
  | _ => exact h

theorem tagged_run (e0 : Ep I A) (cmp : CmpOptions) (ops : List (XOp I A)) :
    Tagged ((Coord.new e0 cmp).run cfg env X T ops).calls :=
  run_inv (P := fun c => Tagged c.calls) (fun hf h => h.first hf) (fun hm h => h.move hm)
    (by intro o ev t h; simp [Coord.new] at h) ops

end Verif.Coord
