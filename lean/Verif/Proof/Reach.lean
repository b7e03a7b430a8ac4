import Verif.Proof.EpAct
import Verif.Proof.Change
import Verif.Proof.CoreQueue
import Verif.Proof.BroadcastRun
/-
Induction over histories and over the actions of one call.
-/
namespace Verif.Ep
open Verif Core Spec
variable {I A : Type} [DecidableEq I] [DecidableEq A]
variable {cfg : Cfg I A} {env : Env I A}

theorem member_eq (e : Ep I A) (id : I) : member e id = e.core.members.get id := rfl

/-- What a new endpoint looks like. -/
theorem tryNew_eq {now : Nat} {e : Ep I A} (h : tryNew cfg env now = .ok e) :
    e = refreshCache { core := Core.init cfg env now
                       user := .new cfg.userTiers cfg.retransmitMult
                       localState := cfg.initialLocalState
                       cached := { join := false, states := [], userData := [] } } := by
  unfold tryNew at h
  dsimp only at h
  repeat' split at h
  all_goals (cases h; try rfl)

theorem tryNew_core {now : Nat} {e : Ep I A} (h : tryNew cfg env now = .ok e) : e.core = Core.init cfg env now := by
  rw [tryNew_eq h, refreshCache_core]

theorem run_append (e : Ep I A) (a b : List (Op I A)) :
    Ep.run cfg env e (a ++ b) = Ep.run cfg env (Ep.run cfg env e a) b := by
  simp [Ep.run, List.foldl_append]

theorem run_snoc (e : Ep I A) (a : List (Op I A)) (op : Op I A) :
    Ep.run cfg env e (a ++ [op]) = (Ep.step cfg env (Ep.run cfg env e a) op).1 := by
  simp [Ep.run, List.foldl_append]

theorem run_cons (e : Ep I A) (op : Op I A) (a : List (Op I A)) :
    Ep.run cfg env e (op :: a) = Ep.run cfg env (Ep.step cfg env e op).1 a := rfl

theorem reachable_run {e : Ep I A} (h : Reachable cfg env e) (ops : List (Op I A)) :
    Reachable cfg env (Ep.run cfg env e ops) := by
  obtain ⟨now, e0, o, h0, rfl⟩ := h
  exact ⟨now, e0, o ++ ops, h0, (run_append _ _ _).symm⟩

theorem reachable_step {e : Ep I A} (h : Reachable cfg env e) (op : Op I A) :
    Reachable cfg env (e.step cfg env op).1 := reachable_run h [op]

theorem reachable_new {now : Nat} {e0 : Ep I A} (h : tryNew cfg env now = .ok e0) : Reachable cfg env e0 :=
  ⟨now, e0, [], h, rfl⟩

/-- Induction over histories. -/
theorem reachable_induct {P : Ep I A → Prop} {e : Ep I A} (h : Reachable cfg env e)
    (init : ∀ now e0, tryNew cfg env now = .ok e0 → P e0)
    (step : ∀ e op, Reachable cfg env e → P e → P (e.step cfg env op).1) : P e := by
  obtain ⟨now, e0, ops, h0, rfl⟩ := h
  induction ops using snoc_induction with
  | h0 => exact init _ _ h0
  | h1 ops op ih =>
    rw [run_snoc]
    exact step _ _ ⟨now, e0, ops, h0, rfl⟩ ih

theorem reachable_good {e : Ep I A} (h : Reachable cfg env e) : Good cfg e.core :=
  reachable_induct h (fun now e0 h0 => by rw [tryNew_core h0]; exact good_init now)
    (fun e op _ hg => (step_acts e op).good hg)

theorem good_run {e : Ep I A} (h : Good cfg e.core) (ops : List (Op I A)) : Good cfg (Ep.run cfg env e ops).core := by
  induction ops generalizing e with
  | nil => exact h
  | cons op ops ih => exact ih ((step_acts e op).good h)

/-- Induction over the actions of one call, with the possible changes of one record. -/
theorem step_induct {Q : Core I A → Prop} {e : Ep I A} (hg : Good cfg e.core) (op : Op I A) (id : I)
    (h0 : Q e.core)
    (hs : ∀ c x, ActOf cfg env op x → Good cfg c → Q c →
      Change cfg env c id x (c.members.get id) ((act cfg env c x).members.get id) → Q (act cfg env c x)) :
    Q (e.step cfg env op).1.core :=
  (step_acts e op).inductGood hg h0 (fun c x hp hc hq => hs c x hp hc hq (act_change hc x id))

/-- Servicing timers: the expired suspicions first, then actions other than `expire`. -/
theorem timeout_split (e : Ep I A) (now : Nat) (hl : e.core.lifecycle = .running) :
    Acts cfg env (fun x => ActOf cfg env (.timeout now) x ∧ ∀ t, x ≠ .expire t)
      (e.core.fireExpiredSuspicions cfg env now) (e.step cfg env (.timeout now)).1.core := by
  have hb : Base (I := I) (A := A) (fun x => ActOf cfg env (.timeout now) x ∧ ∀ t, x ≠ .expire t) :=
    { push := fun ev h => ⟨.push ev h, fun _ => by simp⟩
      fail := fun s => ⟨.fail s, fun _ => by simp⟩
      success := ⟨.success, fun _ => by simp⟩
      drain := fun o l => ⟨.drain o l, fun _ => by simp⟩
      one := fun l => ⟨.one l, fun _ => by simp⟩ }
  show Acts _ _ _ _ (e.handleTimeout cfg env now).core
  unfold handleTimeout
  rw [if_neg (by simp [hl])]
  dsimp only
  rw [refreshCache_core]
  refine Acts.trans ?_ (firePushPullScheduler_acts hb _ _)
  refine Acts.trans ?_ (fireGossipScheduler_acts hb _ _)
  refine Acts.trans ?_ (fireProbeScheduler_acts _ _ (fun pick => ⟨.reset pick now, fun _ => by simp⟩))
  rw [fireExpiredIntents_core, fireExpiredForwards_core]
  exact advanceProbes_acts hb { e with core := e.core.fireExpiredSuspicions cfg env now } _
    (fun s hs => ⟨.probeFailed s rfl hs, fun _ => by simp⟩)

/-- The time of an action. -/
def actTime : Act I A → Option Nat
  | .alive _ _ _ now => some now
  | .suspect _ now => some now
  | .dead _ now => some now
  | .expire now => some now
  | .reset _ now => some now
  | .leave now => some now
  | _ => none

theorem actOf_time {op : Op I A} {x : Act I A} (h : ActOf cfg env op x) {t : Nat} (ht : actTime x = some t) :
    t ∈ op.times := by
  cases h <;> simp only [actTime, Option.some.injEq, reduceCtorEq] at ht <;> subst ht <;>
    simp_all [Op.times, Op.time?]

/-- Accusations of death come from outside. -/
theorem actOf_dead {op : Op I A} {d : BadState I} {t : Nat} (h : ActOf cfg env op (.dead d t)) :
    HearsDead d.node op d.incarnation := by
  cases h with
  | dead src => exact .packet _ _ _ rfl
  | remoteLeft r hn hr hs => exact .merge op r hr hs rfl

theorem actOf_alive {op : Op I A} {a : Alive I A} {ok : Bool} {off t : Nat}
    (h : ActOf cfg env op (.alive a ok off t)) :
    HearsAlive op a t ∧ ∃ tk, ok = env.aliveOk tk (nodeOf a .alive) := by
  cases h with
  | alive src a now tk off => exact ⟨.packet _ _ _, tk, rfl⟩
  | remoteAlive r tk off hn hr hs => exact ⟨.merge op r _ hr hs hn, tk, rfl⟩

/-- A call that reaps delivers no Alive claims. -/
theorem reset_no_alive {op : Op I A} {pick : Nat → Nat} {t : Nat} (h : ActOf cfg env op (.reset pick t)) :
    (op = .timeout t ∨ op = .resetNodes t) := by
  cases h with
  | reset => exact .inl rfl
  | resetNodes => exact .inr rfl

theorem live_iff {m : Member I A} : Live m ↔ m.state = .alive ∨ m.state = .suspect := Iff.rfl
theorem down_iff {m : Member I A} : Down m ↔ m.state = .dead ∨ m.state = .left := Iff.rfl

omit [DecidableEq I] [DecidableEq A] in
theorem live_not_down {m : Member I A} (h : Live m) : ¬ Down m := by
  rintro (h' | h') <;> rcases h with h | h <;> rw [h] at h' <;> cases h'

end Verif.Ep
