import Verif.Proof.QuicOverdue4
import Verif.Props.QuicTime
/-
C107: over QUIC nothing outlives its deadline. The vocabulary is in Spec/QuicTime; a history is any sequence of calls of the
node's interface (see Props/Quic). `bridges` are the reliable exchanges in progress.
-/
namespace Verif.Quic
open Verif
variable {I A : Type} [DecidableEq I] [DecidableEq A] {Q : Quinn A}
variable {cfg : Cfg I A} {env : Env I A} {X : QCfg} {T : TEnv}

/-- A timer of an exchange, a connection, a dial or the endpoint that is over makes the wake-up a full tick. -/
theorem timeout_ticks {s : Quic I Q} (hk : Kept0 s) {now t : Nat} {k : TimerKey} (h1 : k ≠ .catchup) (h2 : k ≠ .immediateDue)
    (h : ({ s with lastNow := some now }.refresh).index.deadlineOf k = some t) (ht : t ≤ now) :
    s.timeout cfg env X T now = ({ s with lastNow := some now }.refresh).runTick cfg env X T now := by
  have hinv : DeadlineIndex.Inv ({ s with lastNow := some now }.refresh).index :=
    DeadlineIndex.inv_set (DeadlineIndex.inv_set (DeadlineIndex.inv_set hk.wf _ _) _ _) _ _
  unfold Quic.timeout Quic.wake
  dsimp only
  rw [if_pos]
  cases he : ({ s with lastNow := some now }.refresh).index.earliestExcluding2 .catchup .immediateDue with
  | none => rw [(earliestExcluding2_none hinv _ _).1 he k h1 h2] at h; cases h
  | some w =>
    have := ((earliestExcluding2_spec hinv _ _ w).1 he).2 k t h1 h2 h
    simpa using Nat.le_trans this ht

end Verif.Quic

namespace Verif.Props
open Verif Spec Quic
variable {I A : Type} [DecidableEq I] [DecidableEq A] {Q : Quinn A}
variable {cfg : Cfg I A} {env : Env I A} {X : QCfg} {T : TEnv}

/-- C107. When the node is woken and an exchange or a dial has run out, then afterwards no exchange and no dial remains
whose deadline is over. -/
theorem C107_overdue (hS : Q.Sound) {t0 : Nat} {e0 : Ep I A} (hnew : Ep.tryNew cfg env t0 = .ok e0) (q : Q.E)
    (cmp : CmpOptions) (ops : List (Quic.QOp I A)) (hc : 0 < cfg.streamTimeout) (now : Nat)
    (ho : Overdue ((Quic.new e0 q cmp : Quic I Q).run cfg env X T ops) now) :
    let s' := (Quic.new e0 q cmp : Quic I Q).run cfg env X T (ops ++ [.timeout now])
    (∀ x b, s'.bridges.get? x = some b → now < b.deadline) ∧ (∀ d ∈ waitingDials s', now < d.deadline) := by
  intro s'
  have hN' := (node_run (cfg := cfg) (env := env) (X := X) (T := T) hS hnew q cmp (ops ++ [.timeout now])).1
  have hs' : s' = ((Quic.new e0 q cmp : Quic I Q).run cfg env X T ops).timeout cfg env X T now := by
    show Quic.run cfg env X T _ (ops ++ [.timeout now]) = _
    rw [Quic.run_append]; rfl
  change NodeInv cfg env X s' at hN'
  generalize hse : (Quic.new e0 q cmp : Quic I Q).run cfg env X T ops = s at ho hs'
  have hk : Kept0 s := hse ▸ clock_run hS hnew q cmp ops
  have hd : DialInv s := hse ▸ dial_run hS hnew q cmp ops
  have hsane : Sane cfg env X s := hse ▸ sane_run hS hnew q cmp ops
  have hI := (node_run (cfg := cfg) (env := env) (X := X) (T := T) hS hnew q cmp ops).2
  rw [hse] at hI
  have htick : s' = ({ s with lastNow := some now }.refresh).runTick cfg env X T now := by
    rw [hs']
    rcases ho with ⟨x, b, hx, hterm, hq, hdl⟩ | ⟨d, hmem, hdl⟩
    · have : ∃ t ≤ b.deadline, b.pollTimeout = some t := by
        unfold QBridge.pollTimeout
        rw [hterm]
        split
        · next hf => cases hf
        · split
          · exact ⟨_, Nat.min_le_right _ _, rfl⟩
          · exact ⟨_, Nat.le_refl _, rfl⟩
      obtain ⟨t, h1, h2⟩ := this
      refine timeout_ticks hk (k := .bridge x) (by simp) (by simp) (t := t) ?_ (Nat.le_trans h1 hdl)
      rw [quic_timers]
      rcases hk.bridge x b (fun h => h) hx with h | h
      · rw [hq] at h; cases h
      · exact h.trans h2
    · refine timeout_ticks hk (k := .dial d.id) (by simp) (by simp) (t := d.wake) ?_
        (Nat.le_trans (hd.early d (List.mem_append_left _ hmem)) hdl)
      rw [quic_timers]
      exact hd.timed d hmem
  have hs0 : Sane cfg env X ({ s with lastNow := some now }.refresh) :=
    Sane.moves (T := T) hS hsane (.one (.book ..))
  have hd0 : ({ s with lastNow := some now }.refresh).doom = [] := hI.calm.doom
  constructor
  · intro x b hx
    rw [htick] at hx
    rcases runTick_ahead (T := T) (now := now) hS hc hs0 hd0 x b hx with h | h
    · cases h
    · exact h
  · rw [htick] at hN' ⊢
    exact (runTick_fresh _).waiting hN'.books.np

/-- An exchange whose deadline comes is over; a dial whose deadline comes is given up. -/
example :
    let s := Ex.q0.run Ex.cfg Ex.env Ex.QX0 Ex.T0 Ex.qDialOps
    let r := Ex.q0.run Ex.cfg Ex.env Ex.QX0 Ex.T0 (Ex.qDialOps.take 1)
    let s' := Ex.q0.run Ex.cfg Ex.env Ex.QX0 Ex.T0 (Ex.qDialOps ++ [.timeout (10000 * MS + 5)])
    let r' := Ex.q0.run Ex.cfg Ex.env Ex.QX0 Ex.T0 (Ex.qDialOps.take 1 ++ [.timeout (10000 * MS + 5)])
    0 < Ex.cfg.streamTimeout ∧
    (s.bridges.map (fun e => (e.1, e.2.isTerminal, e.2.queued, e.2.deadline))) = [(1, false, false, 10000 * MS + 5)] ∧
    s'.bridges.length = 0 ∧
    (waitingDials r).map (·.deadline) = [10000 * MS + 5] ∧ (waitingDials r').length = 0 := by
  decide +kernel

/-- C107. A flush ends every exchange whose deadline is over, whatever state the node is in. -/
theorem C107_flush (hS : Q.Sound) {t0 : Nat} {e0 : Ep I A} (hnew : Ep.tryNew cfg env t0 = .ok e0) (q : Q.E)
    (cmp : CmpOptions) (ops : List (Quic.QOp I A)) (hc : 0 < cfg.streamTimeout) (now : Nat) (x : Nat) (b : QBridge I A) :
    ((Quic.new e0 q cmp : Quic I Q).run cfg env X T (ops ++ [.flush now])).bridges.get? x = some b → now < b.deadline := by
  intro hx
  have hsane : Sane cfg env X ((Quic.new e0 q cmp : Quic I Q).run cfg env X T ops) := sane_run hS hnew q cmp ops
  have hI := (node_run (cfg := cfg) (env := env) (X := X) (T := T) hS hnew q cmp ops).2
  rw [Quic.run_append] at hx
  rcases flush_ahead (T := T) (now := now) hS hc hsane hI.calm.doom x b hx with h | h
  · cases h
  · exact h

example :
    let s := fun t => Ex.q0.run Ex.cfg Ex.env Ex.QX0 Ex.T0 (Ex.qDialOps ++ [.flush t])
    (s (10000 * MS + 4)).bridges.length = 1 ∧ (s (10000 * MS + 5)).bridges.length = 0 := by
  decide +kernel

end Verif.Props
