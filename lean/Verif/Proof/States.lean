import Verif.Proof.NetStep
/-
The states a record in the table can have.
-/
namespace Verif.Ep
open Verif Core Spec
variable {I A : Type} [DecidableEq I] [DecidableEq A]
variable {cfg : Cfg I A} {env : Env I A}

/-- One of the four known states. -/
def Known (s : NState) : Prop := s = .alive ∨ s = .suspect ∨ s = .dead ∨ s = .left

omit [DecidableEq I] [DecidableEq A] in
theorem adopt_alive (a : Alive I A) (g : Option Nat) (now : Nat) (m : Member I A) :
    (adoptAlive a g now m).state = .alive := by
  unfold adoptAlive
  dsimp only
  split <;> simp_all [Member.setState]

theorem act_known {c : Core I A} (hc : Good cfg c) (x : Act I A)
    (h : ∀ id m, c.members.get id = some m → Known m.state) :
    ∀ id m, (c.act cfg env x).members.get id = some m → Known m.state := by
  intro id m hm
  have hch := act_change (env := env) hc x id
  rw [hm] at hch
  revert h
  generalize hoo : c.members.get id = o at hch
  intro h
  generalize ho' : some m = o' at hch
  cases hch with
  | same => subst ho'; exact h _ _ hoo
  | confirm _ _ m0 => cases ho'; exact h _ m0 hoo
  | refuted _ m0 => cases ho'; exact h _ m0 hoo
  | suspected => cases ho'; exact .inr (.inl rfl)
  | killed d _ m0 =>
    cases ho'
    by_cases hd : d.node = d.src
    · exact .inr (.inr (.inr (by simp [hd])))
    · exact .inr (.inr (.inl (by simp [hd])))
  | expired => cases ho'; exact .inr (.inr (.inl rfl))
  | newer => cases ho'; exact .inl (adopt_alive ..)
  | reclaimed => cases ho'; exact .inl (adopt_alive ..)
  | new => cases ho'; exact .inl (adopt_alive ..)
  | reaped => cases ho'
  | metadata _ m0 => cases ho'; exact h _ m0 hoo
  | left => cases ho'; exact .inr (.inr (.inr rfl))

theorem reachable_known {e : Ep I A} (h : Reachable cfg env e) :
    ∀ id m, e.core.members.get id = some m → Known m.state := by
  refine reachable_induct (P := fun e => ∀ id m, e.core.members.get id = some m → Known m.state) h ?_ ?_
  · intro now e0 h0 id m hm
    rw [tryNew_eq h0] at hm
    have hc : ∀ e : Ep I A, e.refreshCache.core = e.core := by
      intro e; unfold refreshCache; split <;> rfl
    rw [hc] at hm
    have hm' := (Table.get_mem hm)
    left
    have hm'' : m ∈ [_] := hm'
    rw [List.mem_singleton.1 hm'']
  · intro e op hr hq
    exact step_micro_induct (Q := fun e => ∀ id m, e.core.members.get id = some m → Known m.state) hr op hq
      (fun late a b hg _ hq hm => (micro_acts hm).inductGood
        (Q := fun c => ∀ id m, c.members.get id = some m → Known m.state) hg hq (fun c x _ hc hq => act_known hc x hq))

end Verif.Ep
