import Verif.Model.Snapshot
import Verif.Proof.Cache

/-!
Lemmas behind C125: with the same version, the health score is the same.
-/

namespace Verif.Snapshot

open Verif Core Ep Spec

variable {I A : Type} [DecidableEq I] [DecidableEq A]
variable {cfg : Cfg I A} {env : Env I A}

/-- `c'` comes later than `c`: with the same version it has the same health. -/
def Steady (c c' : Core I A) : Prop := c.snapVer ≤ c'.snapVer ∧ (c'.snapVer = c.snapVer → c'.awareness = c.awareness)

omit [DecidableEq I] [DecidableEq A] in
theorem Steady.refl (c : Core I A) : Steady c c := ⟨Nat.le_refl _, fun _ => rfl⟩

omit [DecidableEq I] [DecidableEq A] in
theorem Steady.trans {a b c : Core I A} (h : Steady a b) (h2 : Steady b c) : Steady a c :=
  ⟨Nat.le_trans h.1 h2.1, fun e => (h2.2 (by have := h.1; have := h2.1; omega)).trans
    (h.2 (by have := h.1; have := h2.1; omega))⟩

omit [DecidableEq I] [DecidableEq A] in
theorem Steady.of_lt {c c' : Core I A} (h : c.snapVer < c'.snapVer) : Steady c c' :=
  ⟨Nat.le_of_lt h, fun e => absurd e (by omega)⟩

omit [DecidableEq I] [DecidableEq A] in
theorem Steady.of_eq {c c' : Core I A} (h : c.snapVer ≤ c'.snapVer) (hm : c'.awareness = c.awareness) : Steady c c' :=
  ⟨h, fun _ => hm⟩

omit [DecidableEq A] in
theorem refute_steady (c : Core I A) (acc : Nat) : Steady c (c.refute cfg env acc) := by
  unfold refute
  split
  · exact .refl _
  · apply Steady.of_lt
    have h : ∀ x : Core I A, (x.skipIncarnationPast acc).snapVer = x.snapVer := by
      intro x; unfold skipIncarnationPast; split <;> rfl
    dsimp only
    split
    all_goals
      simp only [bump, broadcast]
      split <;> simp [h, nextIncarnation]

omit [DecidableEq A] in
theorem processDead_steady (c : Core I A) (d : BadState I) (now : Nat) :
    Steady c (c.processDead cfg env d now) := by
  apply processDead_cases cfg env c d now (fun c' => Steady c c')
  · exact .refl _
  · intro _ _ _ _ _ _; exact refute_steady _ _
  · intro _ _ _ _ _ _ _
    exact Steady.of_lt (by simp [killed, Core.emit, Event.isMembership, broadcast, clearSuspicion])
  · intro _ _ _ _ _ _ _
    exact Steady.of_lt (by simp [killed, Core.emit, Event.isMembership, broadcast, clearSuspicion])

omit [DecidableEq A] in
theorem resetNodes_steady (c : Core I A) (pick : Nat → Nat) (now : Nat) :
    Steady c (c.resetNodes cfg pick now) := by
  refine .of_eq (resetNodes_later c pick now).1 ?_
  unfold Core.resetNodes
  dsimp only
  generalize (c.members.filter (fun m => reapable cfg m now)).map Member.id = ids
  have hf : ∀ (ids : List I) (c : Core I A), (ids.foldl
      (fun c id => { c with suspIdx := c.suspIdx.set id none, members := c.members.remove id }) c).awareness =
        c.awareness := by
    intro ids
    induction ids with
    | nil => intro c; rfl
    | cons id ids ih => intro c; rw [List.foldl_cons, ih]
  rw [hf]
  split <;> rfl

theorem act_steady {c : Core I A} (hc : Good cfg c) (x : Act I A) : Steady c (c.act cfg env x) := by
  cases x with
  | alive a ok off now =>
    obtain ⟨m0, hm0, hlo⟩ := hc.inv.loc
    apply processAlive_cases cfg env c a ok off now (fun c' => Steady c c')
    · exact .refl _
    · intro _ _ _ _ _ _
      exact Steady.of_eq (by simp [Core.emit, Event.isMembership]) rfl
    · intro _ _ _ _ _ _; exact Steady.of_eq (Nat.le_refl _) rfl
    · intro _ _ _ _ _; exact Steady.of_eq (Nat.le_refl _) rfl
    · intro _ _ _ _ _ _
      refine Steady.trans ?_ (refute_steady _ _)
      exact Steady.of_eq (Nat.le_refl _) rfl
    · intro _ _ _ _ _ _ _; exact Steady.of_lt (adopted_later ..)
    · intro _ _ _ _ _ _ _; exact Steady.of_lt (adopted_later ..)
    · intro _ _ _ _ _; exact Steady.of_lt (adopted_later (c.withPlaceholder a off now) ..)
    · rw [hm0]; rfl
    · intro m hl hm
      have := (hc.inv.local_get hm).state
      rw [hl] at this
      simpa using this
    · exact hc.inv.nodup
  | suspect s now =>
    apply processSuspect_cases cfg env c s now (fun c' => Steady c c')
    · exact .refl _
    · intro _ _ _ _ _ _ _ _ _; exact Steady.of_eq (Nat.le_refl _) rfl
    · intro _ _ _ _ _ _; exact refute_steady _ _
    · intro _ _ _ _ _ _ _ _ _ _; exact Steady.of_lt (by simp [broadcast, bump])
  | dead d now => exact processDead_steady _ _ _
  | expire now =>
    simp only [act]
    split
    · unfold fireExpiredSuspicions
      generalize c.expiredIds now = ids
      have : ∀ (ids : List I) (c : Core I A), Steady c (ids.foldl (expireOne cfg env now) c) := by
        intro ids
        induction ids with
        | nil => intro c; exact .refl _
        | cons id ids ih =>
          intro c
          rw [List.foldl_cons]
          exact (processDead_steady _ _ _).trans (ih _)
      exact this ids c
    · exact .refl _
  | reset pick now => exact resetNodes_steady _ _ _
  | updateMeta md =>
    simp only [act]
    split
    · exact Steady.of_lt (by simp [Core.updateMeta, Core.emit, Event.isMembership, broadcast, nextIncarnation])
    · exact .refl _
  | push ev => simp only [act]; split <;> exact Steady.of_eq (Nat.le_refl _) rfl
  | pop => exact Steady.of_eq (Nat.le_refl _) rfl
  | dropDials => exact Steady.of_eq (Nat.le_refl _) rfl
  | fail sev => exact Steady.of_lt (by simp [act, bump])
  | success => exact Steady.of_lt (by simp [act, bump])
  | drain o l => exact Steady.of_eq (Nat.le_refl _) rfl
  | one l => exact Steady.of_eq (Nat.le_refl _) rfl
  | leave now =>
    simp only [act]
    split
    · unfold beginLeave
      dsimp only
      exact Steady.trans (b := { c with lifecycle := .leaving, events := c.events.filter (fun e => !e.isDial) })
        (Steady.of_eq (Nat.le_refl _) rfl) (processDead_steady _ _ _)
    · exact .refl _

theorem acts_steady {P : Act I A → Prop} {c c' : Core I A} (h : Acts cfg env P c c') (hg : Good cfg c) : Steady c c' :=
  h.inductGood (Q := fun c' => Steady c c') hg (.refl _) (fun _ x _ hc hq => hq.trans (act_steady hc x))

theorem step_later_steady {e : Ep I A} (h : Reachable cfg env e) (op : Op I A) :
    Later e.core (e.step cfg env op).1.core ∧ Steady e.core (e.step cfg env op).1.core :=
  step_micro_induct (Q := fun e' => Later e.core e'.core ∧ Steady e.core e'.core) h op ⟨.refl _, .refl _⟩
    (fun _ _ _ hg _ hq hm => ⟨hq.1.trans (acts_later (micro_acts hm) hg), hq.2.trans (acts_steady (micro_acts hm) hg)⟩)

/-- The records of the table as a snapshot shows them. -/
def shown (t : Table I A) : List (NodeState I A) := t.map fun m => { m.server with state := m.state }

/-- The same as the push/pull states show. -/
def toShown (p : PushNodeState I A) : NodeState I A := ⟨p.id, p.addr, p.metadata, p.state, p.pv, p.dv⟩

omit [DecidableEq I] [DecidableEq A] in
theorem shown_eq (t : Table I A) : shown t = (tableStates t).map toShown := by
  simp [shown, tableStates, toShown, Function.comp_def]

omit [DecidableEq A] in
theorem liveness_eq {e : Ep I A} (h : (e.core.members.map Member.id).Nodup) {m : Member I A} (hm : m ∈ e.core.members) :
    liveness e m.server.id = m.state := by
  have : e.core.members.get m.server.id = some m := (Table.get_iff h).2 ⟨hm, rfl⟩
  simp [liveness, this]

theorem snapshotOf_eq {e : Ep I A} (h : Reachable cfg env e) :
    ∃ m, e.core.members.get cfg.localId = some m ∧ m.server.addr = cfg.advertise ∧
      snapshotOf cfg e = some { members := shown e.core.members, loc := m.server
                                aliveCount := (e.core.members.filter fun m => m.state = .alive).length
                                memberCount := e.core.members.length, health := e.core.awareness.score } := by
  have hi := (reachable_good h).inv
  obtain ⟨m, hm, hl⟩ := hi.loc
  refine ⟨m, hm, hl.addr, ?_⟩
  have h1 : (e.core.members.map fun m => ({ m.server with state := liveness e m.server.id } : NodeState I A)) =
      shown e.core.members :=
    List.map_congr_left fun x hx => by rw [liveness_eq hi.nodup hx]
  have h2 : (e.core.members.filter fun m => liveness e m.server.id = .alive) =
      e.core.members.filter fun m => m.state = .alive :=
    List.filter_congr fun x hx => by rw [liveness_eq hi.nodup hx]
  simp only [snapshotOf, hm, h1, h2]

end Verif.Snapshot
