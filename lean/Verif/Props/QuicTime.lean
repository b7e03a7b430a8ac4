import Verif.Proof.QuicTimers
import Verif.Proof.QuicAuth
import Verif.Props.Timers
import Verif.Example.Quic
/-
C106: the timers of a QUIC node. The vocabulary is in Spec/QuicTime; a history is any sequence of calls of the node's
interface (see Props/Quic).
-/
namespace Verif.Props
open Verif Spec Quic
variable {I A : Type} [DecidableEq I] [DecidableEq A] {Q : Quinn A}
variable {cfg : Cfg I A} {env : Env I A} {X : QCfg} {T : TEnv}

/-- C106. The time a QUIC node asks to be woken at is never later than any time at which it has something to do; and it
is one of those, unless some exchange waits for its turn. -/
theorem C106_wake (hS : Q.Sound) {t0 : Nat} {e0 : Ep I A} (hnew : Ep.tryNew cfg env t0 = .ok e0) (q : Q.E)
    (cmp : CmpOptions) (ops : List (Quic.QOp I A)) :
    let s := (Quic.new e0 q cmp : Quic I Q).run cfg env X T ops
    (∀ t, QDue cfg s t → ∃ w ≤ t, (s.step cfg env X T .pollTimeout).2 = .time (some w)) ∧
    (∀ w, (s.step cfg env X T .pollTimeout).2 = .time (some w) →
      QDue cfg s w ∨ ∃ x b, s.bridges.get? x = some b ∧ b.queued = true) := by
  intro s
  have hk : Kept0 s := clock_run hS hnew q cmp ops
  have hd : DialInv s := dial_run hS hnew q cmp ops
  obtain ⟨hN, hI⟩ := node_run (cfg := cfg) (env := env) (X := X) (T := T) hS hnew q cmp ops
  have hr : Reachable cfg env s.ep := by
    have h : WireInv cfg env X T e0 s := Quic.wire_run hS hnew q cmp ops
    exact ⟨t0, e0, _, hnew, h.ep⟩
  have hw : s.waiting = waitingDials s := by
    unfold Quic.waiting waitingDials flat; rw [hI.calm.hand, List.append_nil]
  have hu := quic_atOnce hN.books hI.calm.hand
  have hinv : DeadlineIndex.Inv s.refresh.index :=
    DeadlineIndex.inv_set (DeadlineIndex.inv_set (DeadlineIndex.inv_set hk.wf _ _) _ _) _ _
  have cover : ∀ k t, s.refresh.index.deadlineOf k = some t → ∃ w ≤ t, s.refresh.index.earliest = some w := by
    intro k t h
    cases he : s.refresh.index.earliest with
    | none => rw [(DeadlineIndex.earliest_none hinv).1 he k] at h; cases h
    | some w => exact ⟨w, ((DeadlineIndex.earliest_spec hinv w).1 he).2 k t h, rfl⟩
  have ans : (s.step cfg env X T .pollTimeout).2 = .time s.refresh.index.earliest := rfl
  rw [ans]
  constructor
  · intro t ht
    have fin : ∀ t, (∃ k, s.refresh.index.deadlineOf k = some t) → ∃ w ≤ t, (QOut.time s.refresh.index.earliest : QOut I A) = .time (some w) := by
      rintro t ⟨k, h⟩
      obtain ⟨w, h1, h2⟩ := cover k t h
      exact ⟨w, h1, by rw [h2]⟩
    cases ht with
    | endpoint t hrun hdue =>
      cases he : s.ep.pollTimeout with
      | none => exact absurd hdue (((C41_poll hr hrun).1.1 he) t)
      | some u =>
        have := ((C41_poll hr hrun).2 u).1 he
        obtain ⟨w, h1, h2⟩ := fin u ⟨.endpoint, by rw [quic_timers]; exact he⟩
        exact ⟨w, Nat.le_trans h1 (this.2 t hdue), h2⟩
    | exchange x b t hx hq ht =>
      refine fin t ⟨.bridge x, ?_⟩
      rw [quic_timers]
      rcases hk.bridge x b (fun h => h) hx with h | h
      · rw [hq] at h; cases h
      · exact h.trans ht
    | dial d hmem =>
      refine fin _ ⟨.dial d.id, ?_⟩
      rw [quic_timers]
      exact hd.timed d hmem
    | connection ch e t hx ht =>
      refine fin t ⟨.conn ch, ?_⟩
      rw [quic_timers]
      exact (hk.conn ch e (fun h => h) hx).trans ht
    | atOnce t hl hor =>
      refine fin t ⟨.immediateDue, ?_⟩
      rw [quic_timers]
      show (if _ then _ else _) = _
      rw [if_pos (hor.imp hu.2 (fun h => h))]
      exact hl
    | leftOver t h => exact fin t ⟨.catchup, by rw [quic_timers]; exact h⟩
  · intro w hwk
    injection hwk with hwk
    obtain ⟨⟨k, hkk⟩, -⟩ := (DeadlineIndex.earliest_spec hinv w).1 hwk
    rw [quic_timers] at hkk
    cases k with
    | endpoint =>
      have hkk : s.ep.pollTimeout = some w := hkk
      have hrun : s.ep.isRunning = true := by
        cases hr' : s.ep.isRunning with
        | true => rfl
        | false => rw [C41_poll_left hr'] at hkk; cases hkk
      exact .inl (.endpoint w hrun (((C41_poll hr hrun).2 w).1 hkk).1)
    | immediateDue =>
      change (if _ then _ else _) = _ at hkk
      split at hkk
      · next h => exact .inl (.atOnce w hkk (h.imp hu.1 (fun h => h)))
      · cases hkk
    | catchup => exact .inl (.leftOver w hkk)
    | bridge x =>
      change s.index.deadlineOf _ = _ at hkk
      cases hx : s.bridges.get? x with
      | none => rw [hk.lone x hx] at hkk; cases hkk
      | some b =>
        cases hq : b.queued with
        | true => exact .inr ⟨x, b, hx, hq⟩
        | false =>
          rcases hk.bridge x b (fun h => h) hx with h | h
          · rw [hq] at h; cases h
          · exact .inl (.exchange x b w hx hq (h.symm.trans hkk))
    | conn ch =>
      change s.index.deadlineOf _ = _ at hkk
      cases hx : s.pool.table.conns.get? ch with
      | none => rw [hk.bare ch hx] at hkk; cases hkk
      | some e => exact .inl (.connection ch e w hx ((hk.conn ch e (fun h => h) hx).symm.trans hkk))
    | dial id =>
      obtain ⟨d, h1, h2, h3⟩ := hd.lone id w hkk
      rw [hw] at h1
      exact .inl (h3 ▸ .dial d h1)

/-- A dial waits and its time to be tried again is asked for, before its deadline and the endpoint's own; then the
exchange runs and its deadline is asked for; when it is over nothing is. -/
example :
    let w := fun ops => ((Ex.q0.run Ex.cfg Ex.env Ex.QX0 Ex.T0 ops).step Ex.cfg Ex.env Ex.QX0 Ex.T0 .pollTimeout).2
    let t := fun o => match o with | (.time r : QOut Nat Nat) => r | _ => none
    t (w (Ex.qDialOps.take 1)) = some (9900 * MS + 5) ∧ t (w Ex.qDialOps) = some (10000 * MS + 5) ∧ t (w Ex.qJoinOps) = none ∧
    (waitingDials (Ex.q0.run Ex.cfg Ex.env Ex.QX0 Ex.T0 (Ex.qDialOps.take 1))).length = 1 ∧
    ((Ex.q0.run Ex.cfg Ex.env Ex.QX0 Ex.T0 Ex.qDialOps).bridges.get? 1).any (fun b => !b.isTerminal && !b.queued) = true := by
  decide +kernel

/-- C106. So no exchange and no dial is forgotten: the node asks to be woken no later than the deadline of any waiting
dial, and no later than the deadline of any exchange that has not ended, unless that exchange already waits for its
turn. -/
theorem C106_deadlines (hS : Q.Sound) {t0 : Nat} {e0 : Ep I A} (hnew : Ep.tryNew cfg env t0 = .ok e0) (q : Q.E)
    (cmp : CmpOptions) (ops : List (Quic.QOp I A)) :
    let s := (Quic.new e0 q cmp : Quic I Q).run cfg env X T ops
    (∀ d ∈ waitingDials s, ∃ w ≤ d.deadline, (s.step cfg env X T .pollTimeout).2 = .time (some w)) ∧
    (∀ x b, s.bridges.get? x = some b → b.isTerminal = false → b.queued = false →
      ∃ w ≤ b.deadline, (s.step cfg env X T .pollTimeout).2 = .time (some w)) := by
  intro s
  have h := (C106_wake (cfg := cfg) (env := env) (X := X) (T := T) hS hnew q cmp ops).1
  have hd : DialInv s := dial_run hS hnew q cmp ops
  constructor
  · intro d hmem
    obtain ⟨w, h1, h2⟩ := h _ (.dial d hmem)
    have := hd.early d (List.mem_append_left _ hmem)
    exact ⟨w, Nat.le_trans h1 this, h2⟩
  · intro x b hx ht hq
    have : ∃ t ≤ b.deadline, b.pollTimeout = some t := by
      unfold QBridge.pollTimeout
      rw [ht]
      split
      · next hf => cases hf
      · split
        · exact ⟨_, Nat.min_le_right _ _, rfl⟩
        · exact ⟨_, Nat.le_refl _, rfl⟩
    obtain ⟨t, h1, h2⟩ := this
    obtain ⟨w, h3, h4⟩ := h _ (.exchange x b t hx hq h2)
    exact ⟨w, Nat.le_trans h3 h1, h4⟩

/-- C106. Whatever a call leaves over has a time set for it, and an exchange that waits for its turn is among what is
left over: the node asks to be woken no later than that time. `capped` would mean that freed places for dials were given
up on after the maximal number of rounds, which the code asserts never to happen. -/
theorem C106_left_over (hS : Q.Sound) {t0 : Nat} {e0 : Ep I A} (hnew : Ep.tryNew cfg env t0 = .ok e0) (q : Q.E)
    (cmp : CmpOptions) (ops : List (Quic.QOp I A)) :
    let s := (Quic.new e0 q cmp : Quic I Q).run cfg env X T ops
    (∀ x b, s.bridges.get? x = some b → b.queued = true → LeftOver s) ∧
    (LeftOver s → s.capped = false →
      ∃ t, s.catchupAt = some t ∧ ∃ w ≤ t, (s.step cfg env X T .pollTimeout).2 = .time (some w)) := by
  intro s
  have hk : Kept0 s := clock_run hS hnew q cmp ops
  have ha : Anchored s := run_anchored ops _ (fun h => by cases h)
  constructor
  · intro x b hx hq
    have := hk.queued x b (fun h => h) hx hq
    exact .inl (List.ne_nil_of_mem this)
  · intro hl hc
    have hres : s.hasResidue = true := by
      unfold hasResidue
      simp only [Bool.or_eq_true, Bool.not_eq_true', List.isEmpty_eq_false_iff]
      rcases hl with h | h | h
      · exact .inl (.inl h)
      · exact .inl (.inr h)
      · exact .inr h
    rcases ha hres with h | h
    · obtain ⟨t, ht⟩ := Option.ne_none_iff_exists'.1 h
      exact ⟨t, ht, (C106_wake hS hnew q cmp ops).1 t (.leftOver t ht)⟩
    · rw [hc] at h; cases h

/-- More dials than one call serves: some are left over, and the node asks for the catch-up time. With an exchange that
took part of the budget, exchanges wait for their turn, too. -/
example :
    let s := Ex.q0.run Ex.cfg Ex.env Ex.QX0 Ex.T0 Ex.qManyOps
    let r := Ex.q0.run Ex.cfg Ex.env Ex.QX0 Ex.T0 Ex.qBusyOps
    s.readyDials = [101] ∧ s.capped = false ∧ s.catchupAt = some (5 * MS + 6) ∧ s.pollTimeout.2 = some (5 * MS + 6) ∧
    r.capped = false ∧ r.bridges.any (fun e => e.2.queued) = true ∧ r.pollTimeout.2 = some (5 * MS + 7) := by
  decide +kernel

/-- C106. A flush, which has no budgets, leaves nothing over. -/
theorem C106_flush (s : Quic I Q) (now : Nat) (hc : (s.step cfg env X T (.flush now)).1.capped = false) :
    ¬ LeftOver (s.step cfg env X T (.flush now)).1 := by
  have h : Clean (s.step cfg env X T (.flush now)).1 := flush_clean s now
  rintro (hl | hl | hl)
  · exact hl h.ready
  · rcases h.freed with hf | hf
    · exact hl hf
    · rw [hc] at hf; cases hf
  · exact hl h.readyDials

/-- What was left over is gone after a flush. -/
example :
    let s := Ex.q0.run Ex.cfg Ex.env Ex.QX0 Ex.T0 Ex.qManyOps
    let r := (s.step Ex.cfg Ex.env Ex.QX0 Ex.T0 (.flush 7)).1
    s.readyDials = [101] ∧ r.readyDials = [] ∧ r.capped = false ∧ r.bridges.length = 66 := by
  decide +kernel

end Verif.Props
