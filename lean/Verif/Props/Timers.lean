import Verif.Proof.Timers
import Verif.Example.Endpoint
/-
Property theorems about timers (C41).
-/
namespace Verif.Props
open Verif Ep Core Spec
variable {I A : Type} [DecidableEq I] [DecidableEq A]
variable {cfg : Cfg I A} {env : Env I A}

/-- C41: a running node reports the earliest time at which it has something to do, and none exactly if there is
nothing to wait for. -/
theorem C41_poll {e : Ep I A} (h : Reachable cfg env e) (hr : e.isRunning = true) :
    (e.pollTimeout = none ↔ ∀ t, ¬ Due cfg e t) ∧
    (∀ t, e.pollTimeout = some t ↔ Due cfg e t ∧ ∀ t', Due cfg e t' → t ≤ t') := by
  have hl : e.core.lifecycle = .running := by simpa [isRunning] using hr
  have hm := pollTimeout_mem h
  have hf := foldl_minOpt [e.core.suspIdx.earliest,
      (e.net.probes.map (fun p => some p.2.deadline)).foldl minOpt none,
      (e.net.forwards.map (fun f => some f.2.deadline)).foldl minOpt none,
      e.net.intentIdx.earliest, e.nextProbe, e.nextGossip, e.nextPushPull] none
  have he : e.pollTimeout = [e.core.suspIdx.earliest,
      (e.net.probes.map (fun p => some p.2.deadline)).foldl minOpt none,
      (e.net.forwards.map (fun f => some f.2.deadline)).foldl minOpt none,
      e.net.intentIdx.earliest, e.nextProbe, e.nextGossip, e.nextPushPull].foldl minOpt none := by
    unfold pollTimeout
    rw [if_neg (by simp [hl])]
  rw [← he] at hf
  generalize [e.core.suspIdx.earliest,
      (e.net.probes.map (fun p => some p.2.deadline)).foldl minOpt none,
      (e.net.forwards.map (fun f => some f.2.deadline)).foldl minOpt none,
      e.net.intentIdx.earliest, e.nextProbe, e.nextGossip, e.nextPushPull] = l at hm hf
  have hsome : ∀ t, e.pollTimeout = some t → Due cfg e t ∧ ∀ t', Due cfg e t' → t ≤ t' := by
    intro t ht
    obtain ⟨h1, h2⟩ := hf.2 t ht
    refine ⟨(hm t).1 (h1.resolve_left (by simp)), fun t' hd => ?_⟩
    obtain ⟨t'', hle, hmem⟩ := (hm t').2 hd
    exact Nat.le_trans (h2 t'' (.inr hmem)) hle
  have hnone : e.pollTimeout = none ↔ ∀ t, ¬ Due cfg e t := by
    rw [hf.1]
    constructor
    · rintro ⟨_, h1⟩ t hd
      obtain ⟨t'', _, hmem⟩ := (hm t).2 hd
      cases h1 _ hmem
    · intro h1
      refine ⟨rfl, fun x hx => ?_⟩
      cases x with
      | none => rfl
      | some t => exact absurd ((hm t).1 hx) (h1 t)
  refine ⟨hnone, fun t => ⟨hsome t, fun ⟨hd, hmin⟩ => ?_⟩⟩
  cases hp : e.pollTimeout with
  | none => exact absurd hd (hnone.1 hp t)
  | some u =>
    obtain ⟨h1, h2⟩ := hsome u hp
    rw [Nat.le_antisymm (h2 t hd) (hmin u h1)]

/-- C41: a node that leaves or has left has no deadline. -/
theorem C41_poll_left {e : Ep I A} (hr : e.isRunning = false) : e.pollTimeout = none := by
  unfold pollTimeout
  rw [if_pos (by simpa [isRunning] using hr)]

/-- C41: after the timers were serviced at some time, everything the node waits for lies strictly later. There is one
exception: a probe of a suspected member failed in this very call, and this accusation shortened the suspicion so that
it ends now. -/
theorem C41_serviced {e : Ep I A} (h : Reachable cfg env e) (hr : e.isRunning = true) (hpt : 0 < cfg.probeTimeout)
    (hst : 0 < cfg.streamTimeout) (now : Nat) {t : Nat} (hd : Due cfg (e.step cfg env (.timeout now)).1 t) :
    now < t ∨ t = now ∧ ∃ id m s seq p, member (e.step cfg env (.timeout now)).1 id = some m ∧ m.susp = some s ∧
      s.deadline = t ∧ pending e seq = some p ∧ p.kind = .detection ∧ p.target.id = id ∧
      (p.failureDeadline ≤ now ∨ p.sentAt + cfg.probeTimeout ≤ now ∧ ∃ d, p.phase = .direct d) := by
  have hl : e.core.lifecycle = .running := by simpa [isRunning] using hr
  cases hd with
  | suspicion id m s hm hs =>
    rcases timeout_susp h hl now id m s hm hs with hlt | ⟨heq, seq, p, hp, hk, ht, hw⟩
    · exact .inl hlt
    · refine .inr ⟨heq, id, m, s, seq, p, hm, hs, rfl, hp, hk, ht, ?_⟩
      rcases hw.2 with h1 | ⟨h1, h2, d, h3⟩
      · exact .inl h1
      · exact .inr ⟨h2, d, h3⟩
  | probe seq p hp => exact .inl (timeout_probes h hl now hpt hp).2
  | direct seq p d hp hph =>
    have h1 := (timeout_probes h hl now hpt hp).1
    have hd := ((reachable_netOk (reachable_step h (.timeout now))).ok seq p hp).direct d hph
    unfold Probe.deadline at h1
    rw [hph] at h1
    dsimp only at h1
    have := Nat.lt_min.1 h1
    exact .inl (by omega)
  | relay seq f hf => exact .inl (timeout_relays h hl now hf)
  | dial id i hi => exact .inl (timeout_dials hl now hst hi)
  | nextProbe _ he => exact .inl ((timeout_schedules h hl now).1 _ he)
  | nextGossip _ he => exact .inl ((timeout_schedules h hl now).2.1 _ he)
  | nextPushPull _ he => exact .inl ((timeout_schedules h hl now).2.2 _ he)

/-- C41: a driver never spins: servicing the timers a second time at the same instant leaves only later deadlines, and
the node never asks to be woken at or before that instant again. -/
theorem C41_twice {e : Ep I A} (h : Reachable cfg env e) (hr : e.isRunning = true) (hpt : 0 < cfg.probeTimeout)
    (hst : 0 < cfg.streamTimeout) (now : Nat) :
    (∀ t, Due cfg (e.run cfg env [.timeout now, .timeout now]) t → now < t) ∧
    (∀ t, (e.run cfg env [.timeout now, .timeout now]).pollTimeout = some t → now < t) := by
  have hl : e.core.lifecycle = .running := by simpa [isRunning] using hr
  have h1 := reachable_step h (.timeout now)
  have h2 := reachable_step h1 (.timeout now)
  have hl1 : (e.step cfg env (.timeout now)).1.core.lifecycle = .running := step_running (reachable_good h) hl _ nofun
  have hr1 : (e.step cfg env (.timeout now)).1.isRunning = true := by simpa [isRunning] using hl1
  have key : ∀ t, Due cfg (e.run cfg env [.timeout now, .timeout now]) t → now < t := by
    intro t hd
    rcases C41_serviced h1 hr1 hpt hst now hd with hlt | ⟨_, id, m, s, seq, p, _, _, _, hp, hk, ht, hw⟩
    · exact hlt
    · exact absurd ⟨seq, p, hp, hk, ht, rfl, hw.imp (fun x => x) (fun ⟨a, b⟩ => ⟨rfl, a, b⟩)⟩ (twice_unblamed h hl now hpt id)
  refine ⟨key, fun t ht => ?_⟩
  by_cases hr2 : (e.run cfg env [.timeout now, .timeout now]).isRunning = true
  · exact key t (((C41_poll h2 hr2).2 t).1 ht).1
  · rw [C41_poll_left (by simpa using hr2)] at ht; cases ht

section
open Ex

/-- Node 2 suspects node 3; much later a probe of node 3 goes unanswered. -/
def lateProbe : List (Op Nat Nat) :=
  [.packet 101 (alive 1 5 [1]) 10, .packet 102 (alive 2 3) 20, .packet 103 (alive 3 1) 30, .packet 102 (suspect 3 1 2) 40,
   .startScheduling (58000 * MS), .startProbe (59000 * MS), .timeout (59500 * MS)]

example : (after lateProbe).isRunning = true ∧ (after lateProbe).pollTimeout = some (59700 * MS) ∧
    ((after lateProbe).net.probes.map (fun p => p.2.failureDeadline)) = [60000 * MS, 60500 * MS] := by decide +kernel

example : 0 < Ex.cfg.probeTimeout ∧ 0 < Ex.cfg.streamTimeout := by decide

/-- C41: the exception is real: node 3 was suspected until 96 s; when its probe fails at 60 s, the node's own accusation
shortens the suspicion to 56 s, so right after the timers were serviced at 60 s the node asks to be woken at 60 s. The
second round declares node 3 dead. -/
theorem C41_same_instant_witness :
    (after (lateProbe ++ [.timeout (60000 * MS)])).pollTimeout = some (60000 * MS) ∧
    (after (lateProbe ++ [.timeout (60000 * MS), .timeout (60000 * MS)])).pollTimeout = some (60200 * MS) ∧
    ((member (after (lateProbe ++ [.timeout (60000 * MS), .timeout (60000 * MS)])) 3).map (fun m => m.state)) =
      some .dead := by decide +kernel

end

end Verif.Props
