import Verif.Proof.CoordLeave
/-
The datagrams that wait in a coordinator are datagrams it was given.
-/
namespace Verif
open Spec
namespace Coord
variable {I A : Type} [DecidableEq I] [DecidableEq A] {cfg : Cfg I A} {env : Env I A} {X : XCfg} {T : TEnv} {N : Nat → Bridge I A → Prop} {L : Prop}

theorem complete_ingress (c : Coord I A) (x : Nat) (m : Option (XMeta A)) (ok : Bool) :
    (c.complete cfg env x m ok).ingress = c.ingress := by
  unfold Coord.complete
  split
  · rfl
  · split <;> rfl

omit [DecidableEq I] [DecidableEq A] in
theorem collect_ingress (c : Coord I A) (x : Nat) (b : Bridge I A) : (c.collect x b).1.ingress = c.ingress := by
  unfold Coord.collect
  split
  · rfl
  · split <;> rfl

theorem move_ingress {c c' : Coord I A} (hm : Move cfg env X T N L c c') : c'.ingress.Sublist c.ingress := by
  cases hm with
  | book s => exact s.ingress
  | @shutdown x b =>
    unfold maybeShutdown
    split
    · exact .refl _
    · split
      · exact .refl _
      · split <;> exact .refl _
  | @collect x b =>
    show (c.collect x b).1.ingress.Sublist _
    rw [collect_ingress]
  | @reap x b =>
    unfold Coord.reap
    simp only []
    have h1 : (if b.isFailed = true then c.purge x else (c.collect x b).1).ingress = c.ingress := by
      split
      · rfl
      · exact collect_ingress c x b
    rw [← h1]
    generalize (if b.isFailed = true then c.purge x else (c.collect x b).1) = c1
    have h3 := complete_ingress (cfg := cfg) (env := env) { c1 with conns := c1.conns.erase x, metas := c1.metas.erase x } x
      (c1.metas.get? x) (!b.isFailed)
    simp only [] at h3
    split
    · show (Coord.ingress (complete ..)).Sublist _
      rw [h3]
    · show (Coord.ingress (complete ..)).Sublist _
      rw [h3]
  | dial now d hr =>
    rcases dialOne_cases (cfg := cfg) (env := env) (X := X) now c d with ⟨e, _⟩ | ⟨e, _⟩ <;> rw [e] <;> exact .refl _
  | @mintOut x b m sid now =>
    have : (c.takeMint cfg env x m (.outbound sid) now).1.ingress = c.ingress := rfl
    rw [← this]
    generalize (c.takeMint cfg env x m (.outbound sid) now).1 = c1
    unfold retireDial
    simp only []
    have h3 := complete_ingress (cfg := cfg) (env := env) { (c1.purge x).purgeConnect x with
      conns := ((c1.purge x).purgeConnect x).conns.erase x, metas := ((c1.purge x).purgeConnect x).metas.erase x } x
      (((c1.purge x).purgeConnect x).metas.get? x) false
    show (Coord.ingress (complete ..)).Sublist _
    rw [h3]; exact .refl _
  | _ => exact .refl _

theorem first_ingress {c c1 : Coord I A} {op : XOp I A} (hf : First cfg env X T c op c1) :
    ∀ e ∈ c1.ingress, e ∈ c.ingress ∨ ∃ now, op = .gossip e.1 e.2 now := by
  cases hf with
  | plain s => exact fun e he => .inl (s.ingress.subset he)
  | gossip src datagram now hr hl =>
    intro e he
    rcases List.mem_append.1 he with h | h
    · exact .inl h
    · rw [List.mem_singleton] at h; subst h; exact .inr ⟨now, rfl⟩
  | encrypt ring =>
    intro e he
    left
    revert he
    unfold Coord.setEncryption
    split
    · exact fun h => h
    · intro h; cases h
  | popAction =>
    intro e he
    left
    revert he
    unfold pollAction
    split
    · exact fun h => h
    · split <;> exact fun h => h
  | accept src now x =>
    intro e he
    left
    revert he
    unfold Coord.accept
    simp only []
    split
    · exact fun h => h
    · split <;> exact fun h => h
  | _ => exact fun e he => .inl he

theorem step_ingress (c : Coord I A) (op : XOp I A) :
    ∀ e ∈ (c.step cfg env X T op).1.ingress, e ∈ c.ingress ∨ ∃ now, op = .gossip e.1 e.2 now := by
  obtain ⟨c1, h1, h2⟩ := step_moves (cfg := cfg) (env := env) (X := X) (T := T) c op
  have h3 : ∀ e ∈ (c.step cfg env X T op).1.ingress, e ∈ c1.ingress :=
    h2.inv (P := fun c' => ∀ e ∈ c'.ingress, e ∈ c1.ingress) (fun hm h e he => h e ((move_ingress hm).subset he))
      (fun _ h => h)
  exact fun e he => first_ingress h1 e (h3 e he)

/-- Whatever waits was given to the coordinator. -/
theorem ingress_from (c : Coord I A) (hc : c.ingress = []) (ops : List (XOp I A)) :
    ∀ e ∈ (c.run cfg env X T ops).ingress, ∃ now, .gossip e.1 e.2 now ∈ ops := by
  suffices ∀ (c : Coord I A) (pre : List (XOp I A)), (∀ e ∈ c.ingress, ∃ now, .gossip e.1 e.2 now ∈ pre) →
      ∀ e ∈ (c.run cfg env X T ops).ingress, ∃ now, .gossip e.1 e.2 now ∈ pre ++ ops by
    have := this c [] (by rw [hc]; simp)
    simpa using this
  induction ops with
  | nil => intro c pre h; simpa [Coord.run] using h
  | cons op ops ih =>
    intro c pre h
    have := ih (c.step cfg env X T op).1 (pre ++ [op]) (fun e he => by
      rcases step_ingress c op e he with h1 | ⟨now, h1⟩
      · obtain ⟨now, h2⟩ := h e h1
        exact ⟨now, List.mem_append_left _ h2⟩
      · exact ⟨now, by rw [h1]; simp⟩)
    simpa [Coord.run] using this

/-- A datagram handed on waited. -/
theorem pollIngress_mem (c : Coord I A) {e : A × Bytes}
    (h : (c.step cfg env X T .pollIngress).2 = .datagram (some e)) : e ∈ c.ingress := by
  simp only [step, XOut.datagram.injEq, pollIngress] at h
  split at h
  · cases h
  · next h1 => cases h; rw [h1]; exact List.mem_cons_self ..

end Coord
end Verif
