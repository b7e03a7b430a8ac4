import Verif.Proof.CoreAct
import Verif.Proof.Broadcast
import Verif.Proof.QueueAll
/-
The gossip queue inside the membership core stays well formed.
-/
namespace Verif.Core
open Verif
variable {I A : Type} [DecidableEq I] [DecidableEq A]
variable {cfg : Cfg I A} {env : Env I A}

/-- The claim operations of an environment. -/
abbrev ops (env : Env I A) : BroadcastOps I (I × Message I A) (Message I A) := claimOps (wireLen env.CI env.CA)

/-- A claim about a member, under that member's id. -/
def IsClaim (b : I × Message I A) : Prop :=
  (∃ a, b.2 = .alive a ∧ a.node.id = b.1) ∨ (∃ s, b.2 = .suspect s ∧ s.node = b.1) ∨ (∃ d, b.2 = .dead d ∧ d.node = b.1)

/-- What happens to the queue. -/
inductive QSteps (env : Env I A) : BQueue I (I × Message I A) → BQueue I (I × Message I A) → Prop
  | refl (q) : QSteps env q q
  | queue {q q'} (b) (hb : IsClaim b) : QSteps env q q' → QSteps env q (q'.queueBroadcast (ops env) b).1
  | take {q q'} (n o l : Nat) : QSteps env q q' → QSteps env q (q'.takeMeasured (ops env) n o l).s
  | one {q q'} (n l : Nat) : QSteps env q q' → QSteps env q (q'.takeOne (ops env) n l).s

omit [DecidableEq A] in
theorem QSteps.trans {a b c : BQueue I (I × Message I A)} (h : QSteps env a b) (h2 : QSteps env b c) :
    QSteps env a c := by
  induction h2 with
  | refl => exact h
  | queue b hb _ ih => exact ih.queue b hb
  | take n o l _ ih => exact ih.take n o l
  | one n l _ ih => exact ih.one n l

omit [DecidableEq I] [DecidableEq A] in
theorem wireLen_le (CI : DataCodec I) (CA : DataCodec A) (m : Message I A) : wireLen CI CA m ≤ U64_MAX := by
  unfold wireLen
  split
  · exact Nat.min_le_right _ _
  · exact Nat.le_refl _

/-- Well-formedness while the queue id counter has not wrapped. -/
def QOk (env : Env I A) (q : BQueue I (I × Message I A)) : Prop :=
  q.calls ≤ U64_MAX → BQueue.Inv (ops env) q ∧ q.idGen ≤ q.calls

theorem invalidate_calls (q : BQueue I (I × Message I A)) (b : I × Message I A) :
    (q.invalidate (ops env) b).1.calls = q.calls := by
  unfold BQueue.invalidate
  simp only [ops, claimOps]
  split
  · unfold BQueue.resetIdle; split <;> rfl
  · rfl

theorem queue_calls (q : BQueue I (I × Message I A)) (b : I × Message I A) :
    (q.queueBroadcast (ops env) b).1.calls = q.calls + 1 := by
  unfold BQueue.queueBroadcast
  dsimp only
  unfold BQueue.insertInto
  dsimp only
  split <;> rw [invalidate_calls]

theorem insertInto_calls (q : BQueue I (I × Message I A)) (x) :
    (q.insertInto (ops env) x).calls = q.calls := by
  unfold BQueue.insertInto; dsimp only; split <;> rfl

theorem resetIdle_calls (q : BQueue I (I × Message I A)) : q.resetIdle.calls = q.calls := by
  unfold BQueue.resetIdle; split <;> rfl

theorem fold_insert_calls (l : List (LB (I × Message I A))) (q : BQueue I (I × Message I A)) :
    (l.foldl (BQueue.insertInto (ops env)) q).calls = q.calls := by
  induction l generalizing q with
  | nil => rfl
  | cons x l ih => rw [List.foldl_cons, ih, insertInto_calls]

theorem drainLoop_calls (tl o l mx fuel tr : Nat) (d : BQueue.Drain I (I × Message I A)) :
    (BQueue.drainLoop (ops env) tl o l mx fuel tr d).s.calls = d.s.calls := by
  induction fuel generalizing tr d with
  | zero => rfl
  | succ n ih =>
    unfold BQueue.drainLoop
    split
    · dsimp only
      split
      · rfl
      · split
        · rw [ih]; rfl
        · rw [ih]
    · rfl

theorem take_calls (q : BQueue I (I × Message I A)) (n o l : Nat) :
    (q.takeMeasured (ops env) n o l).s.calls = q.calls := by
  unfold BQueue.takeMeasured
  split
  · rfl
  · dsimp only
    rw [resetIdle_calls, fold_insert_calls, drainLoop_calls]

theorem one_calls (q : BQueue I (I × Message I A)) (n l : Nat) :
    (q.takeOne (ops env) n l).s.calls = q.calls := by
  unfold BQueue.takeOne
  split
  · rfl
  · dsimp only
    split
    · rfl
    · split
      · rw [resetIdle_calls]; rfl
      · rw [resetIdle_calls, insertInto_calls]; rfl

theorem QSteps.calls {a b : BQueue I (I × Message I A)} (h : QSteps env a b) : a.calls ≤ b.calls := by
  induction h with
  | refl => exact Nat.le_refl _
  | queue b hb _ ih => rw [queue_calls]; omega
  | take n o l _ ih => rw [take_calls]; exact ih
  | one n l _ ih => rw [one_calls]; exact ih

theorem QSteps.ok {a b : BQueue I (I × Message I A)} (h : QSteps env a b) (ha : QOk env a) : QOk env b := by
  have hU : ∀ m, (ops env).encodedLen m ≤ U64_MAX := fun m => wireLen_le env.CI env.CA m
  induction h with
  | refl => exact ha
  | @queue q' b hb _ ih =>
    intro hc
    rw [queue_calls] at hc
    obtain ⟨hi, hg⟩ := ih (by omega)
    obtain ⟨h1, h2, _, h4, _⟩ := hi.queueBroadcast b (by omega)
    exact ⟨h1, by rw [h2]; omega⟩
  | take n o l _ ih =>
    intro hc
    rw [take_calls] at hc
    obtain ⟨hi, hg⟩ := ih hc
    have := (BQueue.takeMeasured_spec hU hi (by omega) n o l).1
    exact ⟨this.inv, by rw [take_calls]; have := this.idGen; omega⟩
  | one n l _ ih =>
    intro hc
    rw [one_calls] at hc
    obtain ⟨hi, hg⟩ := ih hc
    have := (BQueue.takeOne_spec hU hi (by omega) n l).1
    exact ⟨this.inv, by rw [one_calls]; have := this.idGen; omega⟩

/-- What happens to the queue when only claims are queued. -/
inductive QAdds (env : Env I A) : BQueue I (I × Message I A) → BQueue I (I × Message I A) → Prop
  | refl (q) : QAdds env q q
  | queue {q q'} (b) (hb : IsClaim b) : QAdds env q q' → QAdds env q (q'.queueBroadcast (ops env) b).1

omit [DecidableEq A] in
theorem QAdds.trans {a b c : BQueue I (I × Message I A)} (h : QAdds env a b) (h2 : QAdds env b c) : QAdds env a c := by
  induction h2 with
  | refl => exact h
  | queue b hb _ ih => exact ih.queue b hb

omit [DecidableEq A] in
theorem QAdds.steps {a b : BQueue I (I × Message I A)} (h : QAdds env a b) : QSteps env a b := by
  induction h with
  | refl => exact .refl _
  | queue b hb _ ih => exact ih.queue b hb

theorem qa_refute (c : Core I A) (acc : Nat) : QAdds env c.bcast (c.refute cfg env acc).bcast := by
  unfold Core.refute
  split
  · exact .refl _
  · dsimp only
    have e : ∀ c : Core I A, (if acc ≥ c.incarnation then c.skipIncarnationPast acc else c).bcast = c.bcast := by
      intro c; unfold skipIncarnationPast; (repeat' split) <;> rfl
    have e2 : (bump { (if acc ≥ c.nextIncarnation.incarnation then c.nextIncarnation.skipIncarnationPast acc
        else c.nextIncarnation) with
        awareness := (if acc ≥ c.nextIncarnation.incarnation then c.nextIncarnation.skipIncarnationPast acc
        else c.nextIncarnation).awareness.recordFailure 1 }).bcast = c.bcast := by
      show (if acc ≥ c.nextIncarnation.incarnation then c.nextIncarnation.skipIncarnationPast acc
        else c.nextIncarnation).bcast = c.bcast
      rw [e]; rfl
    split
    · rw [e2]; exact .refl _
    · refine QAdds.trans ?_ (QAdds.queue _ (.inl ⟨_, rfl, rfl⟩) (.refl _))
      rw [e2]; exact .refl _

theorem qa_processSuspect (c : Core I A) (s : BadState I) (now : Nat) :
    QAdds env c.bcast (c.processSuspect cfg env s now).bcast := by
  apply processSuspect_cases cfg env c s now (fun c' => QAdds env c.bcast c'.bcast) (.refl _)
  · intros; exact .queue _ (by simp [IsClaim, aliveOf]) (.refl _)
  · intros; exact qa_refute _ _
  · intros; exact .queue _ (by simp [IsClaim, aliveOf]) (.refl _)

theorem qa_processDead (c : Core I A) (d : BadState I) (now : Nat) :
    QAdds env c.bcast (c.processDead cfg env d now).bcast := by
  apply processDead_cases cfg env c d now (fun c' => QAdds env c.bcast c'.bcast) (.refl _)
  · intros; exact qa_refute _ _
  · intros; exact .queue _ (by simp [IsClaim, aliveOf]) (.refl _)
  · intros; exact .queue _ (by simp [IsClaim, aliveOf]) (.refl _)

theorem qa_adopted (c : Core I A) (a : Alive I A) (upd : Bool) (m : Member I A) (now : Nat) :
    QAdds env c.bcast (c.adopted env a upd m now).bcast := by
  unfold Core.adopted
  dsimp only
  split <;> exact .queue _ (by simp [IsClaim, aliveOf]) (.refl _)

theorem qa_processAlive {c : Core I A} (h : Inv cfg c) (a : Alive I A) (ok : Bool) (off now : Nat) :
    QAdds env c.bcast (c.processAlive cfg env a ok off now).bcast := by
  apply processAlive_cases cfg env c a ok off now (fun c' => QAdds env c.bcast c'.bcast) (.refl _)
  · intros; exact .refl _
  · intros; exact .refl _
  · intros; exact .refl _
  · intro m _ _ _ _ _
    exact qa_refute (cfg := cfg) (c.clearSuspicion a.node.id) a.incarnation
  · intros; exact qa_adopted _ _ _ _ _
  · intros; exact qa_adopted _ _ _ _ _
  · intros; exact qa_adopted (c.withPlaceholder a off now) a false _ now
  · obtain ⟨m, hm, _⟩ := h.loc
    rw [hm]; rfl
  · intro m hl hm
    have := (h.local_get hm).state
    rw [hl] at this
    simpa using this
  · exact h.nodup

theorem qa_act {c : Core I A} (h : Good cfg c) (x : Act I A) (h1 : ∀ o l, x ≠ .drain o l) (h2 : ∀ l, x ≠ .one l) :
    QAdds env c.bcast (act cfg env c x).bcast := by
  cases x with
  | alive a ok off now => exact qa_processAlive h.inv _ _ _ _
  | suspect s now => exact qa_processSuspect _ _ _
  | dead d now => exact qa_processDead _ _ _
  | expire now =>
    simp only [act]
    split
    · unfold fireExpiredSuspicions
      generalize c.expiredIds now = ids
      clear h h1 h2
      rename_i h
      clear h
      induction ids generalizing c with
      | nil => exact .refl _
      | cons id ids ih =>
        rw [List.foldl_cons]
        exact QAdds.trans (qa_processDead _ _ _) ih
    · exact .refl _
  | reset pick now =>
    simp only [act]
    unfold Core.resetNodes
    dsimp only
    generalize (c.members.filter (fun m => reapable cfg m now)).map Member.id = ids
    have h0 : (if ids.isEmpty then c else c.bump).bcast = c.bcast := by split <;> rfl
    rw [← h0]
    generalize (if ids.isEmpty then c else c.bump) = c1
    clear h0
    have : (ids.foldl (fun c id => { c with suspIdx := c.suspIdx.set id none, members := c.members.remove id }) c1).bcast
        = c1.bcast := by
      induction ids generalizing c1 with
      | nil => rfl
      | cons id ids ih => rw [List.foldl_cons, ih]
    rw [this]
    exact .refl _
  | updateMeta md => 
    simp only [act]
    split
    · exact .queue _ (by simp [IsClaim, aliveOf]) (.refl _)
    · exact .refl _
  | push ev => simp only [act]; split <;> exact .refl _
  | drain o l => exact absurd rfl (h1 o l)
  | one l => exact absurd rfl (h2 l)
  | leave now =>
    simp only [act]
    split
    · unfold Core.beginLeave
      dsimp only
      refine QAdds.trans ?_ (qa_processDead _ _ _)
      exact .refl _
    · exact .refl _
  | _ => exact .refl _

theorem qs_act {c : Core I A} (h : Good cfg c) (x : Act I A) : QSteps env c.bcast (act cfg env c x).bcast := by
  by_cases h1 : ∃ o l, x = .drain o l
  · obtain ⟨o, l, rfl⟩ := h1
    exact .take _ _ _ (.refl _)
  · by_cases h2 : ∃ l, x = .one l
    · obtain ⟨l, rfl⟩ := h2
      exact .one _ _ (.refl _)
    · exact (qa_act h x (fun o l e => h1 ⟨o, l, e⟩) (fun l e => h2 ⟨l, e⟩)).steps

theorem qok_init (now : Nat) : QOk env (Core.init cfg env now).bcast := by
  have : QSteps env (BQueue.new cfg.retransmitMult) (Core.init cfg env now).bcast := .queue _ (by simp [IsClaim, aliveOf]) (.refl _)
  refine this.ok ?_
  intro _
  exact ⟨BQueue.inv_new _, Nat.le_refl _⟩

/-- Every queued entry is a claim and records the length of its encoding. -/
def ClaimsOk (env : Env I A) (q : BQueue I (I × Message I A)) : Prop :=
  q.All (fun n b => IsClaim b ∧ n = wireLen env.CI env.CA b.2)

theorem QSteps.claims {a b : BQueue I (I × Message I A)} (h : QSteps env a b) (ha : ClaimsOk env a) : ClaimsOk env b := by
  induction h with
  | refl => exact ha
  | queue b hb _ ih => exact ih.queueBroadcast b ⟨hb, rfl⟩
  | take n o l _ ih => exact (BQueue.takeMeasured_all ih n o l).left
  | one n l _ ih => exact (BQueue.takeOne_all ih n l).1

theorem claimsOk_init (now : Nat) : ClaimsOk env (Core.init cfg env now).bcast := by
  have : QSteps env (BQueue.new cfg.retransmitMult) (Core.init cfg env now).bcast :=
    .queue _ (by simp [IsClaim, aliveOf]) (.refl _)
  exact this.claims (BQueue.new_all _)

end Verif.Core
