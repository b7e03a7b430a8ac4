import Verif.Proof.CoreInv
/-
The elementary actions on the membership core. Every call of the endpoint acts on the core through a
sequence of these (Proof/EpAct.lean).
-/
namespace Verif.Core
open Verif
variable {I A : Type} [DecidableEq I] [DecidableEq A]
variable (cfg : Cfg I A) (env : Env I A)

/-- An elementary action. -/
inductive Act (I A : Type) where
  | alive (a : Alive I A) (ok : Bool) (offset now : Nat)
  | suspect (s : BadState I) (now : Nat)
  | dead (d : BadState I) (now : Nat)
  | expire (now : Nat)
  | reset (pick : Nat → Nat) (now : Nat)
  | updateMeta (md : Bytes)
  | push (ev : Event I A)
  | pop
  | dropDials
  | fail (severity : Nat)
  | success
  | drain (overhead limit : Nat)
  | one (limit : Nat)
  | leave (now : Nat)

/-- Perform an action. The guards of `updateMeta`, `push` and `leave` hold wherever the endpoint performs
them. -/
def act (c : Core I A) : Act I A → Core I A
  | .alive a ok offset now => c.processAlive cfg env a ok offset now
  | .suspect s now => c.processSuspect cfg env s now
  | .dead d now => c.processDead cfg env d now
  | .expire now => if c.lifecycle = .running then c.fireExpiredSuspicions cfg env now else c
  | .reset pick now => c.resetNodes cfg pick now
  | .updateMeta md => if c.lifecycle = .running then c.updateMeta cfg env md else c
  | .push ev => if ev.isMembership then c else { c with events := c.events ++ [ev] }
  | .pop => { c with events := c.events.tail }
  | .dropDials => { c with events := c.events.filter (fun e => !e.isDial) }
  | .fail sev => { c with awareness := c.awareness.recordFailure sev }.bump
  | .success => { c with awareness := c.awareness.recordSuccess }.bump
  | .drain overhead limit =>
    { c with bcast :=
        (c.bcast.takeMeasured (claimOps (wireLen env.CI env.CA)) c.members.length overhead limit).s }
  | .one limit =>
    { c with bcast := (c.bcast.takeOne (claimOps (wireLen env.CI env.CA)) c.members.length limit).s }
  | .leave now => if c.lifecycle = .running then c.beginLeave cfg env now else c

/-- `c'` is reached from `c` by actions satisfying `P`. -/
inductive Acts (P : Act I A → Prop) : Core I A → Core I A → Prop
  | refl (c) : Acts P c c
  | snoc {c c' : Core I A} {a : Act I A} : Acts P c c' → P a → Acts P c (act cfg env c' a)

variable {cfg env}

theorem Acts.trans {P : Act I A → Prop} {a b c : Core I A} (h1 : Acts cfg env P a b) (h2 : Acts cfg env P b c) :
    Acts cfg env P a c := by
  induction h2 with
  | refl => exact h1
  | snoc _ hp ih => exact ih.snoc hp

theorem Acts.mono {P Q : Act I A → Prop} {a b : Core I A} (h1 : Acts cfg env P a b) (h : ∀ a, P a → Q a) :
    Acts cfg env Q a b := by
  induction h1 with
  | refl => exact .refl _
  | snoc _ hp ih => exact ih.snoc (h _ hp)

theorem Acts.single {P : Act I A → Prop} {c : Core I A} {a : Act I A} (h : P a) :
    Acts cfg env P c (act cfg env c a) := (Acts.refl c).snoc h

theorem Acts.one {P : Act I A → Prop} {c c' : Core I A} (a : Act I A) (h : P a) (e : c' = act cfg env c a) :
    Acts cfg env P c c' := e ▸ Acts.single h

theorem Acts.of_eq {P : Act I A → Prop} {c c' : Core I A} (e : c' = c) : Acts cfg env P c c' := e ▸ .refl _

/-- Anything preserved by the actions is preserved by sequences of them. -/
theorem Acts.induct {P : Act I A → Prop} {Q : Core I A → Prop} {a b : Core I A} (h : Acts cfg env P a b)
    (ha : Q a) (hs : ∀ c x, P x → Q c → Q (act cfg env c x)) : Q b := by
  induction h with
  | refl => exact ha
  | snoc _ hp ih => exact hs _ _ hp ih

/-- The invariant between calls. -/
structure Good (cfg : Cfg I A) (c : Core I A) : Prop where
  inv : Inv cfg c
  settled : c.lifecycle ≠ .leaving

theorem processDead_lifecycle (c : Core I A) (d : BadState I) (now : Nat) (h : c.lifecycle ≠ .leaving) :
    (c.processDead cfg env d now).lifecycle = c.lifecycle := by
  apply processDead_cases cfg env c _ now (fun c' => c'.lifecycle = c.lifecycle) rfl
  · intro m _ _ _ _ _; exact refute_lifecycle env c _
  · intro m _ _ _ _ _ hl; exact absurd hl h
  · intros; rfl

theorem processSuspect_lifecycle (c : Core I A) (s : BadState I) (now : Nat) :
    (c.processSuspect cfg env s now).lifecycle = c.lifecycle := by
  apply processSuspect_cases cfg env c _ now (fun c' => c'.lifecycle = c.lifecycle) rfl
  · intros; rfl
  · intros; exact refute_lifecycle env c _
  · intros; rfl

theorem adopted_lifecycle (c : Core I A) (a : Alive I A) (upd : Bool) (m : Member I A) (now : Nat) :
    (c.adopted env a upd m now).lifecycle = c.lifecycle := by
  unfold adopted; dsimp only; split <;> rfl

theorem processAlive_lifecycle {c : Core I A} (h : Inv cfg c) (a : Alive I A) (ok : Bool) (offset now : Nat) :
    (c.processAlive cfg env a ok offset now).lifecycle = c.lifecycle := by
  apply processAlive_cases cfg env c a ok offset now (fun c' => c'.lifecycle = c.lifecycle) rfl
  · intros; rfl
  · intros; rfl
  · intros; rfl
  · intros; exact refute_lifecycle env _ _
  · intros; exact adopted_lifecycle _ _ _ _ _
  · intros; exact adopted_lifecycle _ _ _ _ _
  · intros; exact adopted_lifecycle _ _ _ _ _
  · obtain ⟨m, hm, _⟩ := h.loc
    rw [hm]; rfl
  · intro m hl hm
    have := (h.local_get hm).state
    rw [hl] at this
    simpa using this
  · exact h.nodup

theorem fireExpired_lifecycle {c : Core I A} (now : Nat) (hl : c.lifecycle ≠ .leaving) :
    (c.fireExpiredSuspicions cfg env now).lifecycle = c.lifecycle := by
  unfold fireExpiredSuspicions
  generalize c.expiredIds now = ids
  induction ids generalizing c with
  | nil => rfl
  | cons id ids ih =>
    simp only [List.foldl_cons]
    have e : (expireOne cfg env now c id).lifecycle = c.lifecycle := processDead_lifecycle _ _ _ hl
    rw [ih (by rw [e]; exact hl), e]

theorem resetNodes_lifecycle (c : Core I A) (pick : Nat → Nat) (now : Nat) :
    (c.resetNodes cfg pick now).lifecycle = c.lifecycle := by
  unfold Core.resetNodes
  dsimp only
  generalize (c.members.filter (fun m => reapable cfg m now)).map Member.id = ids
  have h0 : (if ids.isEmpty then c else c.bump).lifecycle = c.lifecycle := by split <;> rfl
  generalize (if ids.isEmpty then c else c.bump) = c1 at *
  rw [← h0]; clear h0
  induction ids generalizing c1 with
  | nil => rfl
  | cons id ids ih => simp only [List.foldl_cons]; rw [ih]

/-- The lifecycle changes only by leaving. -/
theorem act_lifecycle {c : Core I A} (h : Good cfg c) (x : Act I A) :
    (act cfg env c x).lifecycle = c.lifecycle ∨
      (∃ now, x = .leave now ∧ c.lifecycle = .running ∧ (act cfg env c x).lifecycle = .left) := by
  cases x with
  | alive a ok offset now => exact .inl (processAlive_lifecycle h.inv _ _ _ _)
  | suspect s now => exact .inl (processSuspect_lifecycle _ _ _)
  | dead d now => exact .inl (processDead_lifecycle _ _ _ h.settled)
  | expire now =>
    left; simp only [act]; split
    · exact fireExpired_lifecycle _ h.settled
    · rfl
  | reset pick now => exact .inl (resetNodes_lifecycle _ _ _)
  | updateMeta md => left; simp only [act]; split <;> rfl
  | push ev => left; simp only [act]; split <;> rfl
  | leave now =>
    simp only [act]; split
    · rename_i hl; exact .inr ⟨now, rfl, hl, (h.inv.beginLeave env hl now).2⟩
    · exact .inl rfl
  | _ => exact .inl rfl

theorem Good.act {c : Core I A} (h : Good cfg c) (x : Act I A) : Good cfg (act cfg env c x) := by
  refine ⟨?_, ?_⟩
  · have hi := h.inv
    cases x with
    | alive a ok offset now => exact hi.processAlive env _ _ _ _
    | suspect s now => exact hi.processSuspect env _ _
    | dead d now => exact hi.processDead env _ _ (fun e => absurd e h.settled)
    | expire now =>
      simp only [Core.act]; split
      · exact hi.fireExpired env _ h.settled
      · exact hi
    | reset pick now => exact hi.resetNodes _ _
    | updateMeta md =>
      simp only [Core.act]; split
      · rename_i hl; exact hi.updateMeta env hl _
      · exact hi
    | push ev => simp only [Core.act]; split <;> exact hi
    | leave now =>
      simp only [Core.act]; split
      · rename_i hl; exact (hi.beginLeave env hl now).1
      · exact hi
    | _ => exact hi
  · rcases act_lifecycle (env := env) h x with e | ⟨_, _, _, e⟩
    · rw [e]; exact h.settled
    · rw [e]; simp

theorem Acts.good {P : Act I A → Prop} {a b : Core I A} (h : Acts cfg env P a b) (ha : Good cfg a) : Good cfg b :=
  h.induct ha (fun _ x _ hc => hc.act x)

theorem good_init (now : Nat) : Good cfg (Core.init cfg env now) := ⟨inv_init env now, by
  show Lifecycle.running ≠ _; simp⟩

/-- Stronger induction: the invariant is available at every step. -/
theorem Acts.inductGood {P : Act I A → Prop} {Q : Core I A → Prop} {a b : Core I A} (h : Acts cfg env P a b)
    (hg : Good cfg a) (ha : Q a) (hs : ∀ c x, P x → Good cfg c → Q c → Q (Core.act cfg env c x)) : Q b := by
  have := h.induct (Q := fun c => Good cfg c ∧ Q c) ⟨hg, ha⟩
    (fun c x hp hc => ⟨hc.1.act x, hs c x hp hc.1 hc.2⟩)
  exact this.2

end Verif.Core
