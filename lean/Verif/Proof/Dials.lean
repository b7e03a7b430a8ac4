import Verif.Proof.Leave
import Verif.Proof.Timers
/-
Stream ids, stream requests and dial requests.
-/
namespace Verif.Ep
open Verif Core Spec
variable {I A : Type} [DecidableEq I] [DecidableEq A]
variable {cfg : Cfg I A} {env : Env I A}

/-- Stream requests only appear under new ids, and never change. -/
structure IdsStep (a b : Ep I A) : Prop where
  mono : a.net.nextStreamId ≤ b.net.nextStreamId
  old : ∀ id i, id < a.net.nextStreamId → b.net.intents.get? id = some i → a.net.intents.get? id = some i

omit [DecidableEq I] [DecidableEq A] in
theorem IdsStep.refl (a : Ep I A) : IdsStep a a := ⟨Nat.le_refl _, fun _ _ _ h => h⟩

omit [DecidableEq I] [DecidableEq A] in
theorem IdsStep.trans {a b c : Ep I A} (h : IdsStep a b) (h2 : IdsStep b c) : IdsStep a c :=
  ⟨Nat.le_trans h.mono h2.mono, fun id i hi hc => h.old id i hi (h2.old id i (Nat.lt_of_lt_of_le hi h.mono) hc)⟩

omit [DecidableEq I] [DecidableEq A] in
theorem IdsStep.same {a b : Ep I A} (h1 : b.net.nextStreamId = a.net.nextStreamId) (h2 : b.net.intents = a.net.intents) :
    IdsStep a b := ⟨Nat.le_of_eq h1.symm, fun id i _ h => by rw [← h2]; exact h⟩

omit [DecidableEq I] [DecidableEq A] in
theorem discard_intents (n : Net I A) (seq : Nat) (p : Probe I A) :
    (discardProbe n seq p).nextStreamId = n.nextStreamId ∧
    ∀ id, (discardProbe n seq p).intents.get? id = n.intents.get? id ∨
      (∃ ex ps nb d, p.phase = .indirect ex ps nb (some id) d) ∧ (discardProbe n seq p).intents.get? id = none := by
  unfold discardProbe
  dsimp only
  split
  · rename_i ex ps nb rid d hph
    refine ⟨rfl, fun id => ?_⟩
    unfold removeIntent
    dsimp only
    rw [Map.get?_erase]
    split
    · rename_i he; subst he
      exact .inr ⟨⟨_, _, _, _, hph⟩, rfl⟩
    · exact .inl rfl
  · exact ⟨rfl, fun id => .inl rfl⟩

theorem handleNack_intents (e : Ep I A) (src : A) (seq now : Nat) :
    (e.handleNack src seq now).net.nextStreamId = e.net.nextStreamId ∧
    (e.handleNack src seq now).net.intents = e.net.intents := by
  unfold handleNack
  split
  · exact ⟨rfl, rfl⟩
  · split
    · exact ⟨rfl, rfl⟩
    · split
      · split <;> exact ⟨rfl, rfl⟩
      · exact ⟨rfl, rfl⟩

theorem micro_ids {op : Op I A} {late : Bool} {a b : Ep I A} (hn : NetOk cfg a.net) (hm : Micro cfg env op late a b) :
    IdsStep a b := by
  cases hm with
  | core x hx => exact .same rfl rfl
  | aux _ hc hs hf hu => exact .same hs.nextStreamId hs.intents
  | fail s p now hp hw hr hlt =>
    obtain ⟨h1, h2⟩ := discard_intents a.net s p
    refine ⟨?_, ?_⟩
    · rw [terminate_net a s now p hp, h1]
    · intro id i _ h
      rw [terminate_net a s now p hp] at h
      rcases h2 id with h3 | ⟨_, h3⟩
      · rw [h3] at h; exact h
      · rw [h3] at h; cases h
  | done s p d pl now hp hd hw hr hlt =>
    refine .same ?_ ?_ <;> rw [complete_net a s now _ _ p hp hd]
  | nack src s now ho => exact .same (handleNack_intents _ _ _ _).1 (handleNack_intents _ _ _ _).2
  | intent i hr =>
    refine ⟨Nat.le_succ _, fun id j hlt h => ?_⟩
    unfold addIntent insertIntent at h
    dsimp only at h
    rw [Map.get?_insert, if_neg (by omega)] at h
    exact h
  | intentDial i hr hw =>
    refine ⟨Nat.le_succ _, fun id j hlt h => ?_⟩
    unfold pushEvent addIntent insertIntent at h
    dsimp only at h
    rw [Map.get?_insert, if_neg (by omega)] at h
    exact h
  | skipId => exact ⟨Nat.le_succ _, fun _ _ _ h => h⟩
  | unintent id hw =>
    refine ⟨Nat.le_refl _, fun id' j _ h => ?_⟩
    unfold removeIntent at h
    dsimp only at h
    rw [Map.get?_erase] at h
    split at h
    · cases h
    · exact h
  | retire s => exact .same rfl rfl
  | gossip targets now ho hr =>
    obtain ⟨ts, h1, _⟩ := sendAll_net (a.drainGossip cfg env).1 targets (a.drainGossip cfg env).2
    refine .same ?_ ?_ <;> rw [h1, (drainGossip_net a).1]
  | leave now f ho hr =>
    obtain ⟨ts, h1⟩ := leaveWith_net (cfg := cfg) (env := env) a now f hr
    refine ⟨by rw [h1], fun id i _ h => ?_⟩
    rw [h1] at h; cases h
  | poll ho => refine .same ?_ ?_ <;> rw [pollTransmit_net]
  | _ => exact .same rfl rfl

theorem step_ids {e : Ep I A} (h : Reachable cfg env e) (op : Op I A) : IdsStep e (e.step cfg env op).1 :=
  step_micro_induct (Q := fun b => IdsStep e b) h op (.refl e) (fun _ _ _ _ hn hq hm => hq.trans (micro_ids hn hm))

theorem run_ids {e : Ep I A} (h : Reachable cfg env e) (ops : List (Op I A)) : IdsStep e (Ep.run cfg env e ops) := by
  induction ops using snoc_induction with
  | h0 => exact .refl e
  | h1 ops op ih => rw [run_snoc]; exact ih.trans (step_ids (reachable_run h ops) op)

/-! ### What a fallback is for -/

/-- The stream request of a probe's fallback. -/
def fallbackOf (p : Probe I A) : Option Nat :=
  match p.phase with
  | .indirect _ _ _ st _ => st
  | .direct _ => none

/-- A request is the fallback of this probe. -/
def FbFor (seq : Nat) (p : Probe I A) (i : Intent A) : Prop :=
  i.peer = p.target.addr ∧ i.kind = .reliablePing seq ∧ i.deadline = p.failureDeadline

/-- The fallbacks of probes are requests for them. -/
def FbOk (n : Net I A) : Prop :=
  ∀ seq p rid, n.probes.get? seq = some p → fallbackOf p = some rid →
    rid < n.nextStreamId ∧ ∀ i, n.intents.get? rid = some i → FbFor seq p i

theorem micro_fallback {op : Op I A} {late : Bool} {a b : Ep I A} (hn : NetOk cfg a.net) (hm : Micro cfg env op late a b)
    {seq : Nat} {p' : Probe I A} {rid : Nat} (hp' : b.net.probes.get? seq = some p') (hf : fallbackOf p' = some rid) :
    (∃ p, a.net.probes.get? seq = some p ∧ fallbackOf p = some rid ∧ p.target = p'.target ∧
      p.failureDeadline = p'.failureDeadline) ∨
    (rid < a.net.nextStreamId ∧ ∃ i, a.net.intents.get? rid = some i ∧ FbFor seq p' i) := by
  have same : b.net.probes = a.net.probes → _ := fun h =>
    Or.inl (b := rid < a.net.nextStreamId ∧ ∃ i, a.net.intents.get? rid = some i ∧ FbFor seq p' i)
      (⟨p', by rw [← h]; exact hp', hf, rfl, rfl⟩ : ∃ p, a.net.probes.get? seq = some p ∧ fallbackOf p = some rid ∧
        p.target = p'.target ∧ p.failureDeadline = p'.failureDeadline)
  have eras : ∀ s, b.net.probes = a.net.probes.erase s → _ := fun s h =>
    Or.inl (b := rid < a.net.nextStreamId ∧ ∃ i, a.net.intents.get? rid = some i ∧ FbFor seq p' i)
      (⟨p', by
        rw [h, Map.get?_erase] at hp'
        split at hp'
        · cases hp'
        · exact hp', hf, rfl, rfl⟩ : ∃ p, a.net.probes.get? seq = some p ∧ fallbackOf p = some rid ∧
        p.target = p'.target ∧ p.failureDeadline = p'.failureDeadline)
  cases hm with
  | core x hx => exact same rfl
  | aux _ hc hs hf hu => exact same hs.probes
  | start s p x hs hr hw hlt =>
    dsimp only at hp'
    rw [Map.get?_insert] at hp'
    split at hp'
    · injection hp' with hp'
      rw [← hp'] at hf
      exfalso
      have : ∃ d, p.phase = .direct d := by
        rcases hw with ⟨_, _, _, _, h⟩ | ⟨_, _, _, _, _, h⟩ <;> rw [h] <;> exact ⟨_, rfl⟩
      obtain ⟨d, hd⟩ := this
      unfold fallbackOf at hf
      rw [hd] at hf; cases hf
    · exact .inl ⟨p', hp', hf, rfl, rfl⟩
  | dispatched s b hlt =>
    dsimp only at hp'
    rw [Map.get?_modify] at hp'
    split at hp'
    · cases hq : a.net.probes.get? seq with
      | none => rw [hq] at hp'; cases hp'
      | some q => rw [hq] at hp'; cases hp'; exact .inl ⟨q, rfl, hf, rfl, rfl⟩
    · exact .inl ⟨p', hp', hf, rfl, rfl⟩
  | fail s p now hp hw hr hlt =>
    exact eras s (by rw [terminate_net a s now p hp, discard_probes])
  | done s p d pl now hp hd hw hr hlt =>
    exact eras s (by rw [complete_net a s now _ _ p hp hd])
  | nack src s now ho =>
    revert hp'
    unfold handleNack
    split
    · intro hp'; exact .inl ⟨p', hp', hf, rfl, rfl⟩
    · rename_i p hp
      split
      · intro hp'; exact .inl ⟨p', hp', hf, rfl, rfl⟩
      · split
        · rename_i ex ps nb st d hph
          split
          · intro hp'
            dsimp only at hp'
            rw [Map.get?_modify] at hp'
            split at hp'
            · rename_i he; subst he
              rw [hp] at hp'; cases hp'
              exact .inl ⟨p, hp, by unfold fallbackOf at *; rw [hph]; exact hf, rfl, rfl⟩
            · exact .inl ⟨p', hp', hf, rfl, rfl⟩
          · intro hp'; exact .inl ⟨p', hp', hf, rfl, rfl⟩
        · intro hp'; exact .inl ⟨p', hp', hf, rfl, rfl⟩
  | fan s p now peers st ho hp hk hph hd hff hl hnd ha hfit hlt hall hst hne =>
    dsimp only at hp'
    rw [Map.get?_modify] at hp'
    split at hp'
    · rename_i he; subst he
      rw [hp] at hp'; cases hp'
      right
      obtain ⟨h1, i, h2, h3, h4, h5⟩ := hst.2 rid hf
      exact ⟨by omega, i, h2, h3, h4, h5⟩
    · exact .inl ⟨p', hp', hf, rfl, rfl⟩
  | retire s =>
    unfold retireFallback at hp'
    dsimp only at hp'
    rw [Map.get?_modify] at hp'
    split at hp'
    · cases hq : a.net.probes.get? seq with
      | none => rw [hq] at hp'; cases hp'
      | some q =>
        rw [hq] at hp'
        cases hph : q.phase with
        | direct d =>
          simp only [Option.map_some, hph] at hp'
          cases hp'
          exact .inl ⟨_, rfl, hf, rfl, rfl⟩
        | indirect ex ps nb st d =>
          simp only [Option.map_some, hph] at hp'
          cases hp'
          cases hf
    · exact .inl ⟨p', hp', hf, rfl, rfl⟩
  | gossip targets now ho hr =>
    obtain ⟨ts, h1, _⟩ := sendAll_net (a.drainGossip cfg env).1 targets (a.drainGossip cfg env).2
    exact same (by rw [h1, (drainGossip_net a).1])
  | leave now f ho hr =>
    obtain ⟨ts, h1⟩ := leaveWith_net (cfg := cfg) (env := env) a now f hr
    exact same (by rw [h1])
  | poll ho => exact same (by rw [pollTransmit_net])
  | _ => exact same rfl

theorem FbOk.micro {op : Op I A} {late : Bool} {a b : Ep I A} (h : FbOk a.net) (hn : NetOk cfg a.net)
    (hm : Micro cfg env op late a b) : FbOk b.net := by
  intro seq p rid hp hf
  have hi := micro_ids hn hm
  rcases micro_fallback hn hm hp hf with ⟨q, hq, hqf, ht, hd⟩ | ⟨hlt, i, hi', hfb⟩
  · obtain ⟨h1, h2⟩ := h seq q rid hq hqf
    refine ⟨Nat.lt_of_lt_of_le h1 hi.mono, fun i hb => ?_⟩
    obtain ⟨h3, h4, h5⟩ := h2 i (hi.old _ _ h1 hb)
    exact ⟨by rw [h3, ht], h4, by rw [h5, hd]⟩
  · refine ⟨Nat.lt_of_lt_of_le hlt hi.mono, fun j hb => ?_⟩
    have := hi.old _ _ hlt hb
    rw [hi'] at this; cases this
    exact hfb

theorem reachable_fb {e : Ep I A} (h : Reachable cfg env e) : FbOk e.net := by
  refine reachable_induct (P := fun e => FbOk e.net) h ?_ ?_
  · intro now e0 h0
    rw [tryNew_eq h0]
    have : ∀ e : Ep I A, e.refreshCache.net = e.net := by
      intro e; unfold refreshCache; split <;> rfl
    rw [this]
    intro seq p rid hp
    cases hp
  · intro e op hr hq
    exact step_micro_induct (Q := fun b => FbOk b.net) hr op hq (fun _ _ _ _ hn hq hm => hq.micro hn hm)

/-! ### How requests end -/

/-- Why a stream request ends. -/
def EndWhy (op : Op I A) (id : Nat) (i : Intent A) : Prop :=
  (∃ now, op = .dialSucceeded id now) ∨ op = .dialFailed id ∨ (∃ now f, op = .leave now f) ∨
  ∃ now, op.probeTime = some now ∧ i.deadline ≤ now

theorem micro_ends {op : Op I A} {late : Bool} {a b : Ep I A} (hn : NetOk cfg a.net) (hfb : FbOk a.net)
    (hm : Micro cfg env op late a b) {id : Nat} {i : Intent A} (hi : a.net.intents.get? id = some i) :
    b.net.intents.get? id = some i ∨ (b.net.intents.get? id = none ∧ EndWhy op id i) := by
  have same : b.net.intents = a.net.intents →
      (b.net.intents.get? id = some i ∨ (b.net.intents.get? id = none ∧ EndWhy op id i)) :=
    fun h => .inl (by rw [h]; exact hi)
  cases hm with
  | core x hx => exact same rfl
  | aux _ hc hs hf hu => exact same hs.intents
  | fail s p now hp hw hr hlt =>
    obtain ⟨h1, h2⟩ := discard_intents a.net s p
    rw [terminate_net a s now p hp]
    rcases h2 id with h3 | ⟨⟨ex, ps, nb, d, hph⟩, h3⟩
    · exact .inl (h3.trans hi)
    · refine .inr ⟨h3, .inr (.inr (.inr ⟨now, hw.1, ?_⟩))⟩
      have hf := (hfb s p id hp (by unfold fallbackOf; rw [hph])).2 i hi
      rw [hf.2.2]
      rcases hw.2 with h | ⟨_, _, d', hd'⟩
      · exact h
      · rw [hph] at hd'; cases hd'
  | done s p d pl now hp hd hw hr hlt =>
    exact same (by rw [complete_net a s now _ _ p hp hd])
  | nack src s now ho => exact same (handleNack_intents _ _ _ _).2
  | intent j hr =>
    left
    unfold addIntent insertIntent
    dsimp only
    rw [Map.get?_insert, if_neg (by have := (hn.ids _ _ hi).2; omega)]
    exact hi
  | intentDial j hr hw =>
    left
    unfold pushEvent addIntent insertIntent
    dsimp only
    rw [Map.get?_insert, if_neg (by have := (hn.ids _ _ hi).2; omega)]
    exact hi
  | unintent id' hw =>
    unfold removeIntent
    dsimp only
    rw [Map.get?_erase]
    split
    · rename_i he; subst he
      refine .inr ⟨rfl, ?_⟩
      rcases hw with ⟨now, rfl⟩ | rfl | ⟨now, j, rfl, hj, hd⟩
      · exact .inl ⟨now, rfl⟩
      · exact .inr (.inl rfl)
      · have := Map.get?_of_mem hn.tn hj
        rw [hi] at this; cases this
        exact .inr (.inr (.inr ⟨now, rfl, hd⟩))
    · exact .inl hi
  | gossip targets now ho hr =>
    obtain ⟨ts, h1, _⟩ := sendAll_net (a.drainGossip cfg env).1 targets (a.drainGossip cfg env).2
    exact same (by rw [h1, (drainGossip_net a).1])
  | leave now f ho hr =>
    obtain ⟨ts, h1⟩ := leaveWith_net (cfg := cfg) (env := env) a now f hr
    refine .inr ⟨?_, .inr (.inr (.inl ⟨now, f, ho⟩))⟩
    rw [h1]; rfl
  | poll ho => exact same (by rw [pollTransmit_net])
  | _ => exact same rfl

theorem step_waiting {e : Ep I A} (h : Reachable cfg env e) (op : Op I A) {id : Nat} {i : Intent A}
    (hi : waiting e id = some i) :
    waiting (e.step cfg env op).1 id = some i ∨ (waiting (e.step cfg env op).1 id = none ∧ EndWhy op id i) := by
  have hlt := ((reachable_netOk h).ids _ _ hi).2
  have := step_micro_induct (Q := fun b => IdsStep e b ∧ FbOk b.net ∧ (b.net.intents.get? id = some i ∨
    (b.net.intents.get? id = none ∧ EndWhy op id i))) h op ⟨.refl e, reachable_fb h, .inl hi⟩ ?_
  · exact this.2.2
  · intro late a b hg hn ⟨q1, q2, q3⟩ hm
    refine ⟨q1.trans (micro_ids hn hm), q2.micro hn hm, ?_⟩
    rcases q3 with q3 | ⟨q3, q4⟩
    · exact micro_ends hn q2 hm q3
    · refine .inr ⟨?_, q4⟩
      cases hb : b.net.intents.get? id with
      | none => rfl
      | some j =>
        have := (micro_ids hn hm).old id j (Nat.lt_of_lt_of_le hlt q1.mono) hb
        rw [q3] at this; cases this

/-! ### Dial requests -/

/-- The dial requests in the event queue. -/
def dialQ (e : Ep I A) : List (Nat × A × Nat) := e.core.events.filterMap dialOf

omit [DecidableEq I] [DecidableEq A] in
theorem dialOf_filter (l : List (Event I A)) : (l.filter Event.isDial).filterMap dialOf = l.filterMap dialOf := by
  induction l with
  | nil => rfl
  | cons ev l ih =>
    cases ev <;> first | exact ih | exact congrArg (List.cons _) ih

omit [DecidableEq I] [DecidableEq A] in
theorem dialQ_congr {a b : Ep I A} (h : b.core.events.filter Event.isDial = a.core.events.filter Event.isDial) :
    dialQ b = dialQ a := by
  unfold dialQ
  rw [← dialOf_filter, h, dialOf_filter]

omit [DecidableEq I] [DecidableEq A] in
theorem asideCore_dial : AsideCore (Event.isDial : Event I A → Bool) :=
  ⟨fun _ => rfl, fun _ => rfl, fun _ => rfl, fun _ _ => rfl⟩

omit [DecidableEq I] [DecidableEq A] in
theorem drop_dials (l : List (Event I A)) : (l.filter (fun e => !e.isDial)).filter Event.isDial = [] := by
  rw [List.filter_filter]
  simp

theorem leave_dials (e : Ep I A) (now : Nat) (f : Option Bytes) (hr : e.core.lifecycle = .running) :
    (e.leaveWith cfg env now f).core.events.filter Event.isDial = [] := by
  have hb : ∀ c : Core I A, (c.beginLeave cfg env now).events.filter Event.isDial = [] := by
    intro c
    unfold Core.beginLeave
    dsimp only
    exact (dead_filter asideCore_dial _ _ _).trans (drop_dials _)
  unfold leaveWith
  rw [if_neg (by simp [hr])]
  dsimp only
  split
  · exact (filter_snoc rfl _).trans (hb _)
  · rw [sendFarewells_core, farewellPayloads_core]
    exact hb _

theorem micro_dials {op : Op I A} {late : Bool} (h1 : op ≠ .pollEvent) (h2 : op ≠ .sieveDials) {a b : Ep I A}
    (hg : Good cfg a.core) (hm : Micro cfg env op late a b) :
    dialQ b = dialQ a ∨ (dialQ b = [] ∧ ∃ now f, op = .leave now f) ∨
    (∃ i, IntentWhy cfg env op a i ∧ b = (a.addIntent i).pushEvent (.dialRequested a.net.nextStreamId i.peer i.deadline)) ∨
    ∃ id peer d, op = .requeueDial id peer d := by
  cases hm with
  | core x hx =>
    left
    refine dialQ_congr (act_filterCore asideCore_dial hg x ?_ ?_ ?_ ?_)
    · rintro rfl; cases hx; exact h1 rfl
    · rintro rfl; cases hx; exact h2 rfl
    · rintro now rfl; cases hx
    · rintro ev rfl
      cases hx with
      | push _ _ hq => cases ev <;> first | rfl | cases hq
  | aux _ hc hn hf hu => left; unfold dialQ; rw [hc]
  | dial id peer d hr hd => exact .inr (.inr (.inr ⟨id, peer, d, hd⟩))
  | fail s p now hp hw hr hlt =>
    left
    refine dialQ_congr ?_
    rw [terminate_events a s now p hp, List.filter_append]
    unfold failEvent
    cases p.kind <;> simp [Event.isDial]
  | done s p d pl now hp hd hw hr hlt =>
    left
    refine dialQ_congr ?_
    rw [complete_events a s now d pl p hp hd, List.filter_append]
    unfold doneEvent
    split <;> simp [Event.isDial]
  | nack src seq now ho => left; unfold dialQ; rw [handleNack_core]
  | gossip targets now ho hr => left; unfold dialQ; rw [sendAll_core, drainGossip_events]
  | leave now f ho hr =>
    right; left
    unfold dialQ
    rw [← dialOf_filter, leave_dials _ _ _ hr]
    exact ⟨rfl, now, f, ho⟩
  | poll ho => left; exact dialQ_congr (pollTransmit_filter rfl _)
  | intentDial i hr hw => exact .inr (.inr (.inl ⟨i, hw, rfl⟩))
  | _ => left; rfl

/-- The queued dial requests and those handed out before, `hd`, are for distinct ids, and those queued agree with the
stream requests. -/
structure DialOk (hd : List Nat) (e : Ep I A) : Prop where
  nodup : (hd ++ (dialQ e).map Prod.fst).Nodup
  lt : ∀ x ∈ hd ++ (dialQ e).map Prod.fst, x < e.net.nextStreamId
  agree : ∀ x ∈ dialQ e, ∀ i, e.net.intents.get? x.1 = some i → i.peer = x.2.1 ∧ i.deadline = x.2.2

omit [DecidableEq I] [DecidableEq A] in
/-- Fewer dial requests. -/
theorem DialOk.sub {hd : List Nat} {a b : Ep I A} (h : DialOk hd a) (hi : IdsStep a b)
    (hq : (dialQ b).Sublist (dialQ a)) : DialOk hd b := by
  have hs : (hd ++ (dialQ b).map Prod.fst).Sublist (hd ++ (dialQ a).map Prod.fst) :=
    (List.Sublist.refl hd).append (hq.map _)
  refine ⟨h.nodup.sublist hs, fun x hx => Nat.lt_of_lt_of_le (h.lt x (hs.subset hx)) hi.mono, fun x hx i hb => ?_⟩
  have hxa := hq.subset hx
  exact h.agree x hxa i (hi.old _ _ (h.lt _ (List.mem_append_right _ (List.mem_map_of_mem hxa))) hb)

omit [DecidableEq I] [DecidableEq A] in
/-- Handing out every queued dial request, or the first one. -/
theorem DialOk.hand {hd : List Nat} {a b : Ep I A} (h : DialOk hd a) (hi : IdsStep a b) {l : List (Nat × A × Nat)}
    (hq : dialQ a = l ++ dialQ b) : DialOk (hd ++ l.map Prod.fst) b := by
  have he : hd ++ l.map Prod.fst ++ (dialQ b).map Prod.fst = hd ++ (dialQ a).map Prod.fst := by
    rw [hq, List.map_append, List.append_assoc]
  refine ⟨by rw [he]; exact h.nodup, fun x hx => ?_, fun x hx i hb => ?_⟩
  · rw [he] at hx
    exact Nat.lt_of_lt_of_le (h.lt x hx) hi.mono
  · have hxa : x ∈ dialQ a := by rw [hq]; exact List.mem_append_right _ hx
    exact h.agree x hxa i (hi.old _ _ (h.lt _ (List.mem_append_right _ (List.mem_map_of_mem hxa))) hb)

omit [DecidableEq I] [DecidableEq A] in
theorem DialOk.fresh {hd : List Nat} {a b : Ep I A} (h : DialOk hd a) (hi : IdsStep a b)
    (hq : dialQ b = dialQ a) (hlt : a.net.nextStreamId < b.net.nextStreamId) :
    DialOk (hd ++ [a.net.nextStreamId]) b := by
  refine ⟨?_, fun x hx => ?_, fun x hx i hb => ?_⟩
  · rw [hq, List.append_assoc, List.singleton_append, List.nodup_middle, List.nodup_cons]
    exact ⟨fun hm => Nat.lt_irrefl _ (h.lt _ hm), h.nodup⟩
  · rw [hq] at hx
    simp only [List.append_assoc, List.singleton_append, List.mem_append, List.mem_cons] at hx
    rcases hx with hx | rfl | hx
    · exact Nat.lt_of_lt_of_le (h.lt x (List.mem_append_left _ hx)) hi.mono
    · exact hlt
    · exact Nat.lt_of_lt_of_le (h.lt x (List.mem_append_right _ hx)) hi.mono
  · rw [hq] at hx
    exact h.agree x hx i (hi.old _ _ (h.lt _ (List.mem_append_right _ (List.mem_map_of_mem hx))) hb)

theorem DialOk.micro {op : Op I A} {late : Bool} (h1 : op ≠ .pollEvent) (h2 : op ≠ .sieveDials)
    (h3 : ∀ id peer d, op ≠ .requeueDial id peer d) {hd : List Nat} {a b : Ep I A}
    (hg : Good cfg a.core) (hn : NetOk cfg a.net) (hm : Micro cfg env op late a b) (h : DialOk hd a) : DialOk hd b := by
  have hi := micro_ids hn hm
  rcases micro_dials h1 h2 hg hm with hq | ⟨hq, _⟩ | ⟨i, _, rfl⟩ | ⟨id, peer, d, hq⟩
  · exact h.sub hi (hq ▸ List.Sublist.refl _)
  · exact h.sub hi (hq ▸ List.nil_sublist _)
  · have hq : dialQ ((a.addIntent i).pushEvent (.dialRequested a.net.nextStreamId i.peer i.deadline)) =
        dialQ a ++ [(a.net.nextStreamId, i.peer, i.deadline)] := by
      unfold dialQ pushEvent
      rw [List.filterMap_append]
      rfl
    refine ⟨?_, fun x hx => ?_, fun x hx j hb => ?_⟩
    · rw [hq, List.map_append, ← List.append_assoc, List.nodup_append]
      refine ⟨h.nodup, by simp, ?_⟩
      rintro x hx y hy rfl
      simp only [List.map_cons, List.map_nil, List.mem_singleton] at hy
      have := h.lt x hx
      omega
    · rw [hq, List.map_append, ← List.append_assoc] at hx
      rcases List.mem_append.1 hx with hx | hx
      · exact Nat.lt_of_lt_of_le (h.lt x hx) hi.mono
      · simp only [List.map_cons, List.map_nil, List.mem_singleton] at hx
        rw [hx]
        exact Nat.lt_succ_self _
    · rw [hq] at hx
      rcases List.mem_append.1 hx with hx | hx
      · exact h.agree x hx j (hi.old _ _ (h.lt _ (List.mem_append_right _ (List.mem_map_of_mem hx))) hb)
      · simp only [List.mem_singleton] at hx
        subst hx
        unfold pushEvent addIntent insertIntent at hb
        dsimp only at hb
        rw [Map.get?_insert, if_pos rfl] at hb
        cases hb
        exact ⟨rfl, rfl⟩
  · exact absurd hq (h3 _ _ _)

/-- One call. -/
theorem DialOk.step {hd : List Nat} {e : Ep I A} (hr : Reachable cfg env e) (op : Op I A)
    (h3 : ∀ id peer d, op ≠ .requeueDial id peer d) (h : DialOk hd e) :
    DialOk (hd ++ (dialsIn (e.step cfg env op).2).map Prod.fst) (e.step cfg env op).1 := by
  have hi := step_ids hr op
  have gen : op ≠ .pollEvent → op ≠ .sieveDials → DialOk hd (e.step cfg env op).1 := fun h1 h2 =>
    step_micro_induct (Q := fun b => DialOk hd b) hr op h (fun _ _ _ hg hn hq hm => hq.micro h1 h2 h3 hg hn hm)
  have quiet : op ≠ .pollEvent → op ≠ .sieveDials → dialsIn (e.step cfg env op).2 = [] →
      DialOk (hd ++ (dialsIn (e.step cfg env op).2).map Prod.fst) (e.step cfg env op).1 := by
    intro h1 h2 h4
    rw [h4, List.map_nil, List.append_nil]
    exact gen h1 h2
  cases op with
  | pollEvent =>
    simp only [Ep.step] at hi ⊢
    revert hi
    unfold pollEvent
    cases hev : e.core.events with
    | nil =>
      intro hi
      simp only [dialsIn, List.map_nil, List.append_nil]
      exact h.sub hi (by unfold dialQ; rw [hev])
    | cons ev evs =>
      intro hi
      refine h.hand hi ?_
      unfold dialQ
      rw [hev]
      cases ev <;> rfl
  | sieveDials =>
    simp only [Ep.step] at hi ⊢
    refine h.hand hi ?_
    unfold sieveDials dialQ
    dsimp only
    have : (e.core.events.filter (fun ev => !ev.isDial)).filterMap dialOf = [] := by
      rw [← dialOf_filter, drop_dials]; rfl
    rw [this, List.append_nil]
    exact (dialOf_filter _).symm
  | startPushPullDirect peer kind now =>
    by_cases hl : e.core.lifecycle = .running
    · simp only [Ep.step] at hi ⊢
      unfold startPushPullDirect at hi ⊢
      rw [if_neg (by simp [isRunning, hl])] at hi ⊢
      exact h.fresh hi rfl (Nat.lt_succ_self _)
    · refine quiet (by simp) (by simp) ?_
      simp only [Ep.step]
      unfold startPushPullDirect
      simp [isRunning, hl, dialsIn]
  | startReliablePingDirect pid peer seq d =>
    by_cases hl : e.core.lifecycle = .running
    · simp only [Ep.step] at hi ⊢
      unfold startReliablePingDirect at hi ⊢
      rw [if_neg (by simp [isRunning, hl])] at hi ⊢
      exact h.fresh hi rfl (Nat.lt_succ_self _)
    · refine quiet (by simp) (by simp) ?_
      simp only [Ep.step]
      unfold startReliablePingDirect
      simp [isRunning, hl, dialsIn]
  | startUserMessageDirect peer pl now =>
    by_cases hl : e.core.lifecycle = .running
    · simp only [Ep.step] at hi ⊢
      unfold startUserMessageDirect at hi ⊢
      rw [if_neg (by simp [isRunning, hl])] at hi ⊢
      exact h.fresh hi rfl (Nat.lt_succ_self _)
    · refine quiet (by simp) (by simp) ?_
      simp only [Ep.step]
      unfold startUserMessageDirect
      simp [isRunning, hl, dialsIn]
  | _ => exact quiet (by simp) (by simp) rfl

theorem dialOk_new {now : Nat} {e0 : Ep I A} (h0 : tryNew cfg env now = .ok e0) : DialOk [] e0 := by
  have hq : dialQ e0 = [] := by
    unfold dialQ
    rw [tryNew_core h0]; rfl
  refine ⟨?_, ?_, ?_⟩ <;> rw [hq] <;> simp

theorem dialOk_run {now : Nat} {e0 : Ep I A} (h0 : tryNew cfg env now = .ok e0) (ops : List (Op I A))
    (h3 : ∀ id peer d, Op.requeueDial id peer d ∉ ops) :
    DialOk ((requestedDials cfg env e0 ops).map Prod.fst) (Ep.run cfg env e0 ops) := by
  induction ops using snoc_induction with
  | h0 => exact dialOk_new h0
  | h1 ops op ih =>
    have ih := ih (fun id peer d hm => h3 id peer d (List.mem_append_left _ hm))
    rw [run_snoc]
    have := ih.step (reachable_run (reachable_new h0) ops) op (fun id peer d he => h3 id peer d (by simp [he]))
    unfold requestedDials at this ⊢
    rw [outs_append, List.flatMap_append, List.map_append]
    simpa [Ep.outs] using this

/-! ### Ids issued and streams handed out -/

theorem step_issued (e : Ep I A) (op : Op I A) :
    issuedBy op (e.step cfg env op).2 = [] ∨
    (issuedBy op (e.step cfg env op).2 = [e.net.nextStreamId] ∧
      e.net.nextStreamId < (e.step cfg env op).1.net.nextStreamId) := by
  by_cases hl : e.core.lifecycle = .running
  · cases op with
    | acceptStream src now =>
      right
      simp only [step]
      unfold acceptStream
      rw [if_neg (by simp [isRunning, hl])]
      exact ⟨rfl, Nat.lt_succ_self _⟩
    | startPushPull peer kind now =>
      right
      simp only [step]
      unfold startPushPull startPushPullDirect
      rw [if_neg (by simp [isRunning, hl])]
      exact ⟨rfl, Nat.lt_succ_self _⟩
    | startPushPullDirect peer kind now =>
      right
      simp only [step]
      unfold startPushPullDirect
      rw [if_neg (by simp [isRunning, hl])]
      exact ⟨rfl, Nat.lt_succ_self _⟩
    | startReliablePing pid peer seq d =>
      right
      simp only [step]
      unfold startReliablePing startReliablePingDirect
      rw [if_neg (by simp [isRunning, hl])]
      exact ⟨rfl, Nat.lt_succ_self _⟩
    | startReliablePingDirect pid peer seq d =>
      right
      simp only [step]
      unfold startReliablePingDirect
      rw [if_neg (by simp [isRunning, hl])]
      exact ⟨rfl, Nat.lt_succ_self _⟩
    | startUserMessage peer pl now =>
      right
      simp only [step]
      unfold startUserMessage startUserMessageDirect
      rw [if_neg (by simp [isRunning, hl])]
      exact ⟨rfl, Nat.lt_succ_self _⟩
    | startUserMessageDirect peer pl now =>
      right
      simp only [step]
      unfold startUserMessageDirect
      rw [if_neg (by simp [isRunning, hl])]
      exact ⟨rfl, Nat.lt_succ_self _⟩
    | _ => exact .inl rfl
  · cases op with
    | acceptStream src now =>
      left
      simp only [step]
      unfold acceptStream
      rw [if_pos (by simp [isRunning, hl])]
      rfl
    | startPushPull peer kind now =>
      right
      simp only [step]
      unfold startPushPull startPushPullDirect
      rw [if_pos (by simp [isRunning, hl])]
      exact ⟨rfl, Nat.lt_succ_self _⟩
    | startPushPullDirect peer kind now =>
      right
      simp only [step]
      unfold startPushPullDirect
      rw [if_pos (by simp [isRunning, hl])]
      exact ⟨rfl, Nat.lt_succ_self _⟩
    | startReliablePing pid peer seq d =>
      right
      simp only [step]
      unfold startReliablePing startReliablePingDirect
      rw [if_pos (by simp [isRunning, hl])]
      exact ⟨rfl, Nat.lt_succ_self _⟩
    | startReliablePingDirect pid peer seq d =>
      right
      simp only [step]
      unfold startReliablePingDirect
      rw [if_pos (by simp [isRunning, hl])]
      exact ⟨rfl, Nat.lt_succ_self _⟩
    | startUserMessage peer pl now =>
      left
      simp only [step]
      unfold startUserMessage startUserMessageDirect
      rw [if_pos (by simp [isRunning, hl])]
      rfl
    | startUserMessageDirect peer pl now =>
      left
      simp only [step]
      unfold startUserMessageDirect
      rw [if_pos (by simp [isRunning, hl])]
      rfl
    | _ => exact .inl rfl

theorem issued_spec : ∀ (ops : List (Op I A)) (e : Ep I A), Reachable cfg env e →
    (issuedIds cfg env e ops).Nodup ∧
    ∀ x ∈ issuedIds cfg env e ops, e.net.nextStreamId ≤ x ∧ x < (Ep.run cfg env e ops).net.nextStreamId := by
  intro ops
  induction ops with
  | nil => intro e _; exact ⟨List.nodup_nil, by simp [issuedIds]⟩
  | cons op ops ih =>
    intro e h
    have hr := reachable_step h op
    obtain ⟨h1, h2⟩ := ih _ hr
    have hm := (step_ids h op).mono
    rw [run_cons]
    unfold issuedIds
    rcases step_issued (cfg := cfg) (env := env) e op with h3 | ⟨h3, h4⟩
    · rw [h3, List.nil_append]
      exact ⟨h1, fun x hx => ⟨Nat.le_trans hm (h2 x hx).1, (h2 x hx).2⟩⟩
    · rw [h3, List.singleton_append]
      refine ⟨List.nodup_cons.2 ⟨fun hm => ?_, h1⟩, fun x hx => ?_⟩
      · have := (h2 _ hm).1; omega
      · rcases List.mem_cons.1 hx with rfl | hx
        · exact ⟨Nat.le_refl _, Nat.lt_of_lt_of_le h4 (run_ids hr ops).mono⟩
        · exact ⟨Nat.le_trans hm (h2 x hx).1, (h2 x hx).2⟩

/-- The streams handed out so far are distinct and no longer wait. -/
structure StreamOk (l : List Nat) (e : Ep I A) : Prop where
  nodup : l.Nodup
  old : ∀ x ∈ l, x < e.net.nextStreamId ∧ waiting e x = none

/-- The id of the stream a call hands out. -/
def streamIn : Out I A → Option Nat
  | .stream (some s) => some s.id
  | _ => none

theorem dialSucceeded_waiting (e : Ep I A) (id now : Nat) :
    waiting (e.dialSucceeded cfg id now).1 id = none := by
  have h : (removeIntent e.net id).intents.get? id = none := by
    unfold removeIntent; dsimp only; rw [Map.get?_erase, if_pos rfl]
  unfold dialSucceeded waiting
  split
  · exact h
  · dsimp only
    split
    · split <;> exact h
    · split
      · split <;> exact h
      · exact h

theorem step_stream {e : Ep I A} (h : Reachable cfg env e) (op : Op I A) {x : Nat}
    (hx : streamIn (e.step cfg env op).2 = some x) :
    (x = e.net.nextStreamId ∨ (waiting e x).isSome) ∧ x < (e.step cfg env op).1.net.nextStreamId ∧
      waiting (e.step cfg env op).1 x = none := by
  have hn := reachable_netOk h
  cases op with
  | acceptStream src now =>
    revert hx
    simp only [step]
    unfold acceptStream
    split
    · intro hx; cases hx
    · intro hx
      have hx : e.net.nextStreamId = x := by cases hx; rfl
      subst hx
      refine ⟨.inl rfl, Nat.lt_succ_self _, ?_⟩
      unfold waiting
      dsimp only
      cases hw : e.net.intents.get? e.net.nextStreamId with
      | none => rfl
      | some i => exact absurd (hn.ids _ _ hw).2 (Nat.lt_irrefl _)
  | dialSucceeded id now =>
    have hw := dialSucceeded_waiting (cfg := cfg) e id now
    have hm := (step_ids h (.dialSucceeded id now)).mono
    have : id = x ∧ (waiting e id).isSome := by
      revert hx
      simp only [step]
      unfold dialSucceeded waiting
      cases hi : e.net.intents.get? id with
      | none => intro hx; cases hx
      | some i =>
        dsimp only
        split
        · intro hx; cases hx
        · split
          · intro hx; cases hx
          · intro hx; cases hx; exact ⟨rfl, rfl⟩
    obtain ⟨rfl, h2⟩ := this
    refine ⟨.inr h2, ?_, hw⟩
    obtain ⟨i, hi⟩ := Option.isSome_iff_exists.1 h2
    exact Nat.lt_of_lt_of_le (hn.ids _ _ hi).2 hm
  | _ => cases hx

theorem StreamOk.step {l : List Nat} {e : Ep I A} (h : Reachable cfg env e) (op : Op I A) (hs : StreamOk l e) :
    StreamOk (l ++ (streamIn (e.step cfg env op).2).toList) (e.step cfg env op).1 := by
  have hi := step_ids h op
  have hold : ∀ x ∈ l, x < (e.step cfg env op).1.net.nextStreamId ∧ waiting (e.step cfg env op).1 x = none := by
    intro x hx
    obtain ⟨h1, h2⟩ := hs.old x hx
    refine ⟨Nat.lt_of_lt_of_le h1 hi.mono, ?_⟩
    cases hw : waiting (e.step cfg env op).1 x with
    | none => rfl
    | some i => exact absurd (hi.old x i h1 hw) (by rw [show e.net.intents.get? x = none from h2]; simp)
  cases hx : streamIn (e.step cfg env op).2 with
  | none => simp only [Option.toList_none, List.append_nil]; exact ⟨hs.nodup, hold⟩
  | some x =>
    obtain ⟨h1, h2, h3⟩ := step_stream h op hx
    refine ⟨?_, fun y hy => ?_⟩
    · rw [Option.toList_some, List.nodup_append]
      refine ⟨hs.nodup, by simp, ?_⟩
      rintro a ha b hb rfl
      simp only [List.mem_singleton] at hb
      subst hb
      obtain ⟨h4, h5⟩ := hs.old a ha
      rcases h1 with h1 | h1
      · omega
      · rw [h5] at h1; cases h1
    · rcases List.mem_append.1 hy with hy | hy
      · exact hold y hy
      · simp only [Option.toList_some, List.mem_singleton] at hy
        subst hy; exact ⟨h2, h3⟩

theorem streamOk_run {now : Nat} {e0 : Ep I A} (h0 : tryNew cfg env now = .ok e0) (ops : List (Op I A)) :
    StreamOk (streamIds cfg env e0 ops) (Ep.run cfg env e0 ops) := by
  induction ops using snoc_induction with
  | h0 => exact ⟨List.nodup_nil, by simp [streamIds, Ep.outs]⟩
  | h1 ops op ih =>
    rw [run_snoc]
    have := ih.step (reachable_run (reachable_new h0) ops) op
    have he : streamIds cfg env e0 (ops ++ [op]) =
        streamIds cfg env e0 ops ++ (streamIn ((Ep.run cfg env e0 ops).step cfg env op).2).toList := by
      unfold streamIds
      rw [outs_append, List.filterMap_append]
      congr 1
    rw [he]; exact this

/-- The two parts of a call. -/
theorem ends_ids {e : Ep I A} (h : Reachable cfg env e) (op : Op I A) :
    IdsStep e (stepEnds cfg env e op) ∧ IdsStep (stepEnds cfg env e op) (e.step cfg env op).1 :=
  step_micro_induct2 (Q := fun b => IdsStep e b)
    (R := fun b => IdsStep e (stepEnds cfg env e op) ∧ IdsStep (stepEnds cfg env e op) b) h op (.refl e)
    (fun _ _ _ hn hq hm => hq.trans (micro_ids hn hm)) (fun a ha _ _ hq => ha ▸ ⟨hq, .refl _⟩)
    (fun _ _ _ hn hq hm => ⟨hq.1, hq.2.trans (micro_ids hn hm)⟩)

theorem timeout_waiting {e : Ep I A} (h : Reachable cfg env e) (hr : e.core.lifecycle = .running) {now id : Nat}
    {i j : Intent A} (hi : waiting e id = some j) (hw : waiting (e.step cfg env (.timeout now)).1 id = some i) :
    now < i.deadline := by
  have hlt := ((reachable_netOk h).ids _ _ hi).2
  obtain ⟨h1, h2⟩ := ends_ids h (.timeout now)
  have hm := h2.old id i (Nat.lt_of_lt_of_le hlt h1.mono) hw
  simp only [stepEnds, if_pos hr] at hm
  exact (fireExpiredIntents_intents _ _ hm).2

end Verif.Ep
