import Verif.Proof.NetStep
import Verif.Spec.Probe
/-
Which calls report the outcome of a ping.
-/
namespace Verif.Ep
open Verif Core Spec
variable {I A : Type} [DecidableEq I] [DecidableEq A]
variable {cfg : Cfg I A} {env : Env I A}

/-! ### Events other than membership, conflicts and dials -/

/-- A predicate that no event of the membership core satisfies. -/
structure AsideCore (P : Event I A → Bool) : Prop where
  joined : ∀ n, P (.nodeJoined n) = false
  left : ∀ n, P (.nodeLeft n) = false
  updated : ∀ n, P (.nodeUpdated n) = false
  conflict : ∀ a b, P (.nodeConflict a b) = false

/-- A predicate that no event of the membership core and no dial request satisfies. -/
structure Aside (P : Event I A → Bool) : Prop extends AsideCore P where
  dial : ∀ s p d, P (.dialRequested s p d) = false

omit [DecidableEq I] [DecidableEq A] in
theorem aside_outcome (seq : Nat) : Aside (isOutcome seq : Event I A → Bool) :=
  ⟨⟨fun _ => rfl, fun _ => rfl, fun _ => rfl, fun _ _ => rfl⟩, fun _ _ _ => rfl⟩

omit [DecidableEq I] [DecidableEq A] in
theorem filter_snoc {P : Event I A → Bool} {ev : Event I A} (h : P ev = false) (l : List (Event I A)) :
    (l ++ [ev]).filter P = l.filter P := by
  simp [List.filter_append, h]

omit [DecidableEq I] [DecidableEq A] in
theorem filter_dials {P : Event I A → Bool} (h : Aside P) (l : List (Event I A)) :
    (l.filter (fun e => !e.isDial)).filter P = l.filter P := by
  rw [List.filter_filter]
  refine List.filter_congr ?_
  intro ev _
  cases ev <;> simp [Event.isDial, h.dial]

theorem refute_events (c : Core I A) (acc : Nat) : (c.refute cfg env acc).events = c.events := by
  unfold Core.refute
  split
  · rfl
  · dsimp only [bump, nextIncarnation, skipIncarnationPast]
    split <;> split <;> first | rfl | (split <;> rfl)

theorem suspect_events (c : Core I A) (s : BadState I) (now : Nat) :
    (c.processSuspect cfg env s now).events = c.events := by
  apply processSuspect_cases cfg env c s now (fun c' => c'.events = c.events) rfl
  · intros; rfl
  · intros; exact refute_events _ _
  · intros; rfl

theorem dead_filter {P : Event I A → Bool} (hP : AsideCore P) (c : Core I A) (d : BadState I) (now : Nat) :
    (c.processDead cfg env d now).events.filter P = c.events.filter P := by
  apply processDead_cases cfg env c d now (fun c' => c'.events.filter P = c.events.filter P) rfl
  · intros; rw [refute_events]
  · intros; exact filter_snoc (hP.left _) _
  · intros; exact filter_snoc (hP.left _) _

theorem adopted_filter {P : Event I A → Bool} (hP : AsideCore P) (c : Core I A) (a : Alive I A) (upd : Bool)
    (m : Member I A) (now : Nat) : (c.adopted env a upd m now).events.filter P = c.events.filter P := by
  rw [adopted_events]
  unfold adoptEvent
  split
  · exact filter_snoc (hP.joined _) _
  · split
    · exact filter_snoc (hP.updated _) _
    · simp

/-- Actions other than taking an event, dropping dial requests, leaving or adding an event that matters. -/
theorem act_filterCore {P : Event I A → Bool} (hP : AsideCore P) {c : Core I A} (hc : Good cfg c) (x : Act I A)
    (hx : x ≠ .pop) (hd : x ≠ .dropDials) (hlv : ∀ now, x ≠ .leave now) (hp : ∀ ev, x = .push ev → P ev = false) :
    (act cfg env c x).events.filter P = c.events.filter P := by
  cases x with
  | alive a ok off now =>
    simp only [act]
    apply processAlive_cases cfg env c a ok off now (fun c' => c'.events.filter P = c.events.filter P) rfl
    · intros; exact filter_snoc (hP.conflict _ _) _
    · intros; rfl
    · intros; rfl
    · intros; rw [refute_events]; rfl
    · intros; exact adopted_filter hP _ _ _ _ _
    · intros; exact adopted_filter hP _ _ _ _ _
    · intros; rw [adopted_filter hP]; rfl
    · obtain ⟨m, hm, _⟩ := hc.inv.loc
      rw [hm]; rfl
    · intro m hl hm
      have := (hc.inv.local_get hm).state
      rw [hl] at this
      simpa using this
    · exact hc.inv.nodup
  | suspect s now => simp only [act]; rw [suspect_events]
  | dead d now => exact dead_filter hP _ _ _
  | expire now =>
    simp only [act]
    split
    · unfold fireExpiredSuspicions
      generalize c.expiredIds now = ids
      clear hc
      rename_i h; clear h
      induction ids generalizing c with
      | nil => rfl
      | cons id ids ih => rw [List.foldl_cons, ih]; exact dead_filter hP _ _ _
    · rfl
  | reset pick now =>
    simp only [act]
    unfold Core.resetNodes
    dsimp only
    generalize (c.members.filter (fun m => reapable cfg m now)).map Member.id = ids
    have h0 : (if ids.isEmpty then c else c.bump).events = c.events := by split <;> rfl
    rw [← h0]
    generalize (if ids.isEmpty then c else c.bump) = c1
    have : (ids.foldl (fun c id => { c with suspIdx := c.suspIdx.set id none, members := c.members.remove id }) c1).events
        = c1.events := by
      clear h0
      induction ids generalizing c1 with
      | nil => rfl
      | cons id ids ih => rw [List.foldl_cons, ih]
    exact congrArg (List.filter P) this
  | updateMeta md =>
    simp only [act]; split
    · exact filter_snoc (hP.updated _) _
    · rfl
  | push ev =>
    simp only [act]; split
    · rfl
    · exact filter_snoc (hp ev rfl) _
  | pop => exact absurd rfl hx
  | dropDials => exact absurd rfl hd
  | leave now => exact absurd rfl (hlv now)
  | _ => rfl

/-- Actions other than taking an event or adding one that matters. -/
theorem act_filter {P : Event I A → Bool} (hP : Aside P) {c : Core I A} (hc : Good cfg c) (x : Act I A)
    (hx : x ≠ .pop) (hp : ∀ ev, x = .push ev → P ev = false) :
    (act cfg env c x).events.filter P = c.events.filter P := by
  by_cases hd : x = .dropDials
  · subst hd; exact filter_dials hP _
  · by_cases hlv : ∃ now, x = .leave now
    · obtain ⟨now, rfl⟩ := hlv
      simp only [act]
      split
      · unfold Core.beginLeave
        dsimp only
        exact (dead_filter hP.toAsideCore _ _ _).trans (filter_dials hP _)
      · rfl
    · exact act_filterCore hP.toAsideCore hc x hx hd (fun now h => hlv ⟨now, h⟩) hp

/-- The event of a failed ping. -/
def failEvent (seq : Nat) (p : Probe I A) : List (Event I A) :=
  match p.kind with
  | .detection => []
  | .ping => [.pingFailed seq p.target]

/-- The event of a probe or ping that succeeded. -/
def doneEvent (seq : Nat) (p : Probe I A) (direct : Bool) (payload : Bytes) (now : Nat) : List (Event I A) :=
  if p.kind = .ping ∨ direct = true then [.pingCompleted seq p.target (now - p.sentAt) payload] else []

theorem terminate_events (e : Ep I A) (seq now : Nat) (p : Probe I A) (hp : e.net.probes.get? seq = some p) :
    (e.probeTerminateFailure cfg env seq now).core.events = e.core.events ++ failEvent seq p := by
  unfold probeTerminateFailure failEvent
  rw [hp]
  dsimp only
  cases p.kind with
  | detection =>
    dsimp only
    split
    · simp
    · split
      · rw [suspect_events]; simp [bump]
      · simp [bump]
  | ping => rfl

theorem complete_events (e : Ep I A) (seq now : Nat) (d : Bool) (pl : Bytes) (p : Probe I A)
    (hp : e.net.probes.get? seq = some p) (hd : now < p.failureDeadline) :
    (e.completeProbeSuccess cfg env seq d pl now).core.events = e.core.events ++ doneEvent seq p d pl now := by
  unfold completeProbeSuccess doneEvent
  rw [hp]
  dsimp only
  rw [if_neg (by omega)]
  cases hk : p.kind with
  | detection =>
    dsimp only
    cases d <;> simp [bump, Ep.emit, Core.emit, Event.isMembership]
  | ping => simp [Ep.emit, Core.emit, Event.isMembership]

omit [DecidableEq I] [DecidableEq A] in
theorem failEvent_other {s seq : Nat} (h : s ≠ seq) (p : Probe I A) : (failEvent s p).filter (isOutcome seq) = [] := by
  unfold failEvent
  cases p.kind <;> simp [isOutcome, h]

omit [DecidableEq I] [DecidableEq A] in
theorem failEvent_self (seq : Nat) (p : Probe I A) : (failEvent seq p).filter (isOutcome seq) = failEvent seq p := by
  unfold failEvent
  cases p.kind <;> simp [isOutcome]

omit [DecidableEq I] [DecidableEq A] in
theorem doneEvent_other {s seq : Nat} (h : s ≠ seq) (p : Probe I A) (d : Bool) (pl : Bytes) (now : Nat) :
    (doneEvent s p d pl now).filter (isOutcome seq) = [] := by
  unfold doneEvent
  split <;> simp [isOutcome, h]

omit [DecidableEq I] [DecidableEq A] in
theorem doneEvent_self (seq : Nat) (p : Probe I A) (d : Bool) (pl : Bytes) (now : Nat) :
    (doneEvent seq p d pl now).filter (isOutcome seq) = doneEvent seq p d pl now := by
  unfold doneEvent
  split <;> simp [isOutcome]

/-- How a pending probe ends during a call, and what is reported. -/
def Ended (cfg : Cfg I A) (op : Op I A) (seq : Nat) (p : Probe I A) (new : List (Event I A)) : Prop :=
  (∃ now, FailWhy cfg op p now ∧ new = failEvent seq p) ∨
  (∃ direct payload now, now < p.failureDeadline ∧ DoneWhy op seq p direct payload now ∧
    new = doneEvent seq p direct payload now)

/-- What a call does to the probe with one sequence number: `o` before, `o'` after, `new` the outcomes it
reports. -/
inductive Fate (cfg : Cfg I A) (op : Op I A) (seq : Nat) (o : Option (Probe I A)) :
    Option (Probe I A) → List (Event I A) → Prop
  | kept (p p' : Probe I A) (ho : o = some p) (hs : Kept op true seq p p') : Fate cfg op seq o (some p') []
  | ended (o' : Option (Probe I A)) (new : List (Event I A))
      (ho : (o = none ∧ new = []) ∨ ∃ p, o = some p ∧ Ended cfg op seq p new)
      (hn : o' = none ∨ ∃ q, o' = some q ∧ ((∃ node now, op = .ping node now ∧ o = none) ∨
        (q.kind = .detection ∧ ∃ now, op = .startProbe now ∨ op = .timeout now))) : Fate cfg op seq o o' new

omit [DecidableEq I] in
theorem endedTime {op : Op I A} {seq : Nat} {p : Probe I A} {new : List (Event I A)} (h : Ended cfg op seq p new) :
    op.probeTime.isSome := by
  rcases h with ⟨now, h, _⟩ | ⟨d, pl, now, _, h, _⟩
  · rw [h.1]; rfl
  · rcases h with ⟨src, rfl, _⟩ | ⟨⟨t, rfl⟩, _⟩ <;> rfl

omit [DecidableEq I] in
theorem doneWhy_not_start {op : Op I A} {seq : Nat} {p : Probe I A} {d : Bool} {pl : Bytes} {now : Nat}
    (h : DoneWhy op seq p d pl now) : (∀ node t, op ≠ .ping node t) ∧ (∀ t, op ≠ .startProbe t) ∧
      ∀ t, op ≠ .timeout t := by
  rcases h with ⟨src, rfl, _⟩ | ⟨⟨t, rfl⟩, _⟩ <;> exact ⟨by simp, by simp, by simp⟩

omit [DecidableEq I] in
theorem Kept.failWhy {op : Op I A} {late : Bool} {seq : Nat} {p p' : Probe I A} {now : Nat}
    (h : Kept op late seq p p') (hw : FailWhy cfg op p' now) : FailWhy cfg op p now := by
  unfold FailWhy at *
  rw [h.deadline, h.sentAt] at hw
  refine ⟨hw.1, ?_⟩
  rcases hw.2 with h1 | ⟨h1, h2, d, h3⟩
  · exact .inl h1
  · refine .inr ⟨h1, h2, ?_⟩
    rcases h.direct with h4 | h4
    · exact ⟨d, (h4 d).1 h3⟩
    · exact absurd h3 (h4.2 d)

omit [DecidableEq I] [DecidableEq A] in
theorem _root_.Verif.Spec.SameProbe.failEvent {p p' : Probe I A} (h : SameProbe p p') (seq : Nat) :
    failEvent seq p' = failEvent seq p := by
  unfold Ep.failEvent; rw [h.kind, h.target]

omit [DecidableEq I] [DecidableEq A] in
theorem _root_.Verif.Spec.SameProbe.doneEvent {p p' : Probe I A} (h : SameProbe p p') (seq : Nat) (d : Bool) (pl : Bytes) (now : Nat) :
    doneEvent seq p' d pl now = doneEvent seq p d pl now := by
  unfold Ep.doneEvent; rw [h.kind, h.target, h.sentAt]

omit [DecidableEq I] in
theorem _root_.Verif.Spec.SameProbe.doneWhy {op : Op I A} {seq : Nat} {p p' : Probe I A} {d : Bool} {pl : Bytes} {now : Nat}
    (h : SameProbe p p') (ha : asked p' = asked p) (hw : DoneWhy op seq p' d pl now) :
    DoneWhy op seq p d pl now := by
  unfold DoneWhy at *
  rw [h.target, ha] at hw
  exact hw

theorem beginLeave_filter {P : Event I A → Bool} (hP : Aside P) (c : Core I A) (now : Nat) :
    (c.beginLeave cfg env now).events.filter P = c.events.filter P := by
  unfold Core.beginLeave
  dsimp only
  exact (dead_filter hP.toAsideCore _ _ _).trans (filter_dials hP _)

theorem leaveWith_filter {P : Event I A → Bool} (hP : Aside P) (hl : P .leftCluster = false) (e : Ep I A) (now : Nat)
    (f : Option Bytes) : (e.leaveWith cfg env now f).core.events.filter P = e.core.events.filter P := by
  unfold leaveWith
  split
  · rfl
  · dsimp only
    split
    · exact (filter_snoc hl _).trans (beginLeave_filter hP _ _)
    · rw [sendFarewells_core, farewellPayloads_core]
      exact beginLeave_filter hP _ _

theorem pollTransmit_filter {P : Event I A → Bool} (hl : P .leftCluster = false) (e : Ep I A) :
    e.pollTransmit.1.core.events.filter P = e.core.events.filter P := by
  unfold pollTransmit
  split
  · rfl
  · dsimp only
    split
    · rfl
    · split
      · exact filter_snoc hl _
      · rfl

theorem drainGossip_events (e : Ep I A) : (e.drainGossip cfg env).1.core.events = e.core.events := by
  unfold drainGossip
  dsimp only
  split
  · rfl
  · split <;> rw [drainUser_core]

/-- The events that matter to `P`, along elementary steps. -/
theorem micro_filter {P : Event I A → Bool} (hP : Aside P) (hq : ∀ ev, quietEv ev = true → P ev = false)
    (hl : P .leftCluster = false) {op : Op I A} {late : Bool} (hop : op ≠ .pollEvent) {a b : Ep I A} (hg : Good cfg a.core)
    (hm : Micro cfg env op late a b) :
    b.core.events.filter P = a.core.events.filter P ∨
    (∃ s p now, a.net.probes.get? s = some p ∧ FailWhy cfg op p now ∧ b = a.probeTerminateFailure cfg env s now ∧
      b.core.events.filter P = a.core.events.filter P ++ (failEvent s p).filter P) ∨
    (∃ s p d pl now, a.net.probes.get? s = some p ∧ now < p.failureDeadline ∧ DoneWhy op s p d pl now ∧
      b = a.completeProbeSuccess cfg env s d pl now ∧
      b.core.events.filter P = a.core.events.filter P ++ (doneEvent s p d pl now).filter P) := by
  cases hm with
  | core x hx =>
    left
    refine act_filter hP hg x ?_ ?_
    · rintro rfl; cases hx; exact hop rfl
    · rintro ev rfl
      cases hx with
      | push _ h hq' => exact hq ev hq'
  | aux _ hc hn hf hu => left; rw [hc]
  | dial id peer d hr hd => left; exact filter_snoc (hP.dial _ _ _) _
  | fail s p now hp hw hr hlt =>
    right; left
    exact ⟨s, p, now, hp, hw, rfl, by rw [terminate_events a s now p hp, List.filter_append]⟩
  | done s p d pl now hp hd hw hr hlt =>
    right; right
    exact ⟨s, p, d, pl, now, hp, hd, hw, rfl, by rw [complete_events a s now d pl p hp hd, List.filter_append]⟩
  | nack src seq now ho => left; rw [handleNack_core]
  | gossip targets now ho hr => left; rw [sendAll_core, drainGossip_events]
  | leave now f ho hr => left; exact leaveWith_filter hP hl _ _ _
  | poll ho => left; exact pollTransmit_filter hl _
  | intentDial i hr hw => left; exact filter_snoc (hP.dial _ _ _) _
  | _ => left; rfl

/-- What one call other than `poll_event` does to the probe with one sequence number. -/
theorem step_fate {e : Ep I A} (h : Reachable cfg env e) (op : Op I A) (hop : op ≠ .pollEvent) (seq : Nat) :
    ∃ new, queuedOutcomes (e.step cfg env op).1 seq = queuedOutcomes e seq ++ new ∧
      Fate cfg op seq (pending e seq) (pending (e.step cfg env op).1 seq) new := by
  refine step_micro_induct (Q := fun b => ∃ new, queuedOutcomes b seq = queuedOutcomes e seq ++ new ∧
      Fate cfg op seq (pending e seq) (pending b seq) new) h op ?_ ?_
  · refine ⟨[], by simp, ?_⟩
    cases hp : pending e seq with
    | none => exact .ended none [] (.inl ⟨rfl, rfl⟩) (.inl rfl)
    | some p => exact .kept p p rfl (.refl p)
  · intro late a b hg hn hq hm
    obtain ⟨new, hev, hf⟩ := hq
    have hflt := micro_filter (aside_outcome seq) (fun ev hev => by cases ev <;> simp_all [quietEv, isOutcome]) rfl hop
      hg hm
    have hoth : b.core.events.filter (isOutcome seq) = a.core.events.filter (isOutcome seq) ∨
        (∃ p, a.net.probes.get? seq = some p ∧ b.net.probes.get? seq = none) := by
      rcases hflt with h1 | ⟨s, p, now, hp, _, rfl, h1⟩ | ⟨s, p, d, pl, now, hp, hd, _, rfl, h1⟩
      · exact .inl h1
      · by_cases he : s = seq
        · subst he
          right
          exact ⟨p, hp, by rw [terminate_net a s now p hp, discard_probes, Map.get?_erase, if_pos rfl]⟩
        · left; rw [h1, failEvent_other he, List.append_nil]
      · by_cases he : s = seq
        · subst he
          right
          exact ⟨p, hp, by rw [complete_net a s now d pl p hp hd]; simp only [Map.get?_erase, if_pos]⟩
        · left; rw [h1, doneEvent_other he, List.append_nil]
    cases micro_slot hm hn seq with
    | none h1 h2 =>
      have h0 : b.core.events.filter (isOutcome seq) = a.core.events.filter (isOutcome seq) := by
        rcases hoth with h0 | ⟨p, h3, _⟩
        · exact h0
        · rw [h1] at h3; cases h3
      refine ⟨new, by unfold queuedOutcomes at *; rw [h0, hev], ?_⟩
      unfold pending at *
      rw [h1] at hf; rw [h2]; exact hf
    | kept p p' h1 h2 hs =>
      have h0 : b.core.events.filter (isOutcome seq) = a.core.events.filter (isOutcome seq) := by
        rcases hoth with h0 | ⟨p, _, h3⟩
        · exact h0
        · rw [h2] at h3; cases h3
      refine ⟨new, by unfold queuedOutcomes at *; rw [h0, hev], ?_⟩
      unfold pending at *
      rw [h1] at hf; rw [h2]
      cases hf with
      | kept q q' ho hs' =>
        exact .kept q p' ho (hs'.trans hs.late)
      | ended _ _ ho hn' =>
        refine .ended _ _ ho ?_
        rcases hn' with hn' | ⟨q, hq, hn'⟩
        · cases hn'
        · cases hq
          refine .inr ⟨p', rfl, ?_⟩
          rw [hs.kind]; exact hn'
    | started p ak h1 h2 hw hlt =>
      have h0 : b.core.events.filter (isOutcome seq) = a.core.events.filter (isOutcome seq) := by
        rcases hoth with h0 | ⟨p, h3, _⟩
        · exact h0
        · rw [h1] at h3; cases h3
      refine ⟨new, by unfold queuedOutcomes at *; rw [h0, hev], ?_⟩
      unfold pending at *
      rw [h1] at hf; rw [h2]
      cases hf with
      | ended _ _ ho hn' =>
        refine .ended _ _ ho (.inr ⟨p, rfl, ?_⟩)
        rcases hw with ⟨node, now, ho', _, _⟩ | ⟨m, now, _, ho', _, rfl⟩
        · left
          refine ⟨node, now, ho', ?_⟩
          rcases ho with ho | ⟨q, hq, hend⟩
          · exact ho.1
          · have := endedTime hend
            rw [ho'] at this; cases this
        · right; exact ⟨rfl, now, ho'⟩
    | failed p now h1 h2 hw he hlt =>
      subst he
      have hev' : queuedOutcomes (a.probeTerminateFailure cfg env seq now) seq = queuedOutcomes a seq ++ failEvent seq p := by
        unfold queuedOutcomes
        rw [terminate_events a seq now p h1, List.filter_append, failEvent_self]
      unfold pending at *
      rw [h1] at hf; rw [h2]
      cases hf with
      | kept q q' ho hs' =>
        refine ⟨failEvent seq p, by rw [hev', hev, List.append_nil], .ended _ _ (.inr ⟨q, ho, .inl ⟨now, ?_, ?_⟩⟩) (.inl rfl)⟩
        · exact hs'.failWhy hw
        · exact hs'.toSameProbe.failEvent seq
      | ended _ _ ho hn' =>
        rcases hn' with hn' | ⟨q, hq, hn'⟩
        · cases hn'
        · cases hq
          rcases hn' with ⟨node, t, rfl, _⟩ | ⟨hk, _⟩
          · have := hw.1; cases this
          · refine ⟨new, ?_, .ended _ _ ho (.inl rfl)⟩
            rw [hev', hev]
            unfold failEvent; rw [hk]; simp
    | done p d pl now h1 h2 hd hw he hlt =>
      subst he
      have hev' : queuedOutcomes (a.completeProbeSuccess cfg env seq d pl now) seq =
          queuedOutcomes a seq ++ doneEvent seq p d pl now := by
        unfold queuedOutcomes
        rw [complete_events a seq now d pl p h1 hd, List.filter_append, doneEvent_self]
      unfold pending at *
      rw [h1] at hf; rw [h2]
      obtain ⟨hw1, hw2, hw3⟩ := doneWhy_not_start hw
      cases hf with
      | kept q q' ho hs' =>
        refine ⟨doneEvent seq p d pl now, by rw [hev', hev, List.append_nil],
          .ended _ _ (.inr ⟨q, ho, .inr ⟨d, pl, now, ?_, ?_, ?_⟩⟩) (.inl rfl)⟩
        · rw [← hs'.deadline]; exact hd
        · refine hs'.toSameProbe.doneWhy ?_ hw
          rcases hs'.asked with ha' | ⟨⟨t, ha', _⟩, _⟩
          · exact ha'
          · exact absurd ha' (hw3 t)
        · exact hs'.toSameProbe.doneEvent seq d pl now
      | ended _ _ ho hn' =>
        rcases hn' with hn' | ⟨q, hq, hn'⟩
        · cases hn'
        · cases hq
          rcases hn' with ⟨node, t, h3, _⟩ | ⟨hk, t, h3 | h3⟩
          · exact absurd h3 (hw1 _ _)
          · exact absurd h3 (hw2 _)
          · exact absurd h3 (hw3 _)

end Verif.Ep
