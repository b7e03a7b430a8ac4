import Verif.Proof.States
/-
The schedules and the cached push/pull response.
-/
namespace Verif.Ep
open Verif Core Spec
variable {I A : Type} [DecidableEq I] [DecidableEq A]
variable {cfg : Cfg I A} {env : Env I A}

/-! ### The version of the table -/

/-- `c'` comes later than `c`: with the same version the table holds the same nodes. -/
def Later (c c' : Core I A) : Prop :=
  c.snapVer ≤ c'.snapVer ∧
    (c'.snapVer = c.snapVer → (tableStates c'.members).Perm (tableStates c.members))

omit [DecidableEq I] [DecidableEq A] in
theorem Later.refl (c : Core I A) : Later c c := ⟨Nat.le_refl _, fun _ => .refl _⟩

omit [DecidableEq I] [DecidableEq A] in
theorem Later.trans {a b c : Core I A} (h : Later a b) (h2 : Later b c) : Later a c :=
  ⟨Nat.le_trans h.1 h2.1, fun e => (h2.2 (by have := h.1; have := h2.1; omega)).trans (h.2 (by have := h.1; have := h2.1; omega))⟩

omit [DecidableEq I] [DecidableEq A] in
theorem Later.of_lt {c c' : Core I A} (h : c.snapVer < c'.snapVer) : Later c c' :=
  ⟨Nat.le_of_lt h, fun e => absurd e (by omega)⟩

omit [DecidableEq I] [DecidableEq A] in
theorem Later.of_eq {c c' : Core I A} (h : c'.snapVer = c.snapVer) (hm : c'.members = c.members) : Later c c' :=
  ⟨Nat.le_of_eq h.symm, fun _ => by rw [hm]⟩

omit [DecidableEq A] in
/-- An update that touches only the suspicion. -/
theorem tableStates_susp (t : Table I A) (id : I) (s : Option (Suspicion I)) :
    tableStates (t.update id (fun m => { m with susp := s })) = tableStates t := by
  unfold tableStates Table.update
  rw [List.map_map]
  apply List.map_congr_left
  intro m _
  simp only [Function.comp_apply]
  split <;> rfl

omit [DecidableEq A] in
theorem refute_later (c : Core I A) (acc : Nat) : Later c (c.refute cfg env acc) := by
  unfold refute
  split
  · exact .refl _
  · apply Later.of_lt
    have h : ∀ x : Core I A, (x.skipIncarnationPast acc).snapVer = x.snapVer := by
      intro x; unfold skipIncarnationPast; split <;> rfl
    dsimp only
    split
    all_goals
      simp only [bump, broadcast]
      split <;> simp [h, nextIncarnation]

theorem emit_snap (c : Core I A) (ev : Event I A) (h : ev.isMembership = true) :
    (c.emit ev).snapVer = c.snapVer + 1 := by
  simp [Core.emit, h]

omit [DecidableEq A] in
theorem processDead_later (c : Core I A) (d : BadState I) (now : Nat) :
    Later c (c.processDead cfg env d now) := by
  apply processDead_cases cfg env c d now (fun c' => Later c c')
  · exact .refl _
  · intro _ _ _ _ _ _; exact refute_later _ _
  · intro _ _ _ _ _ _ _
    exact Later.of_lt (by simp [killed, Core.emit, Event.isMembership, broadcast, clearSuspicion])
  · intro _ _ _ _ _ _ _
    exact Later.of_lt (by simp [killed, Core.emit, Event.isMembership, broadcast, clearSuspicion])

theorem adopted_later (c : Core I A) (a : Alive I A) (upd : Bool) (m : Member I A) (now : Nat) :
    c.snapVer < (c.adopted env a upd m now).snapVer := by
  unfold adopted adoptEvent
  dsimp only
  split
  · rename_i ev h
    split at h
    · cases h; simp [Core.emit, Event.isMembership, broadcast, clearSuspicion]
    · split at h
      · cases h; simp [Core.emit, Event.isMembership, broadcast, clearSuspicion]
      · cases h
  · simp [bump, broadcast, clearSuspicion]

omit [DecidableEq A] in
theorem resetNodes_later (c : Core I A) (pick : Nat → Nat) (now : Nat) :
    Later c (c.resetNodes cfg pick now) := by
  unfold Core.resetNodes
  dsimp only
  generalize (c.members.filter (fun m => reapable cfg m now)).map Member.id = ids
  have hf : ∀ (ids : List I) (c : Core I A), (ids.foldl
      (fun c id => { c with suspIdx := c.suspIdx.set id none, members := c.members.remove id }) c).snapVer = c.snapVer := by
    intro ids
    induction ids with
    | nil => intro c; rfl
    | cons id ids ih => intro c; rw [List.foldl_cons, ih]
  cases ids with
  | nil =>
    refine ⟨Nat.le_refl _, fun _ => ?_⟩
    exact (Table.shuffle_perm c.members pick).map _
  | cons id ids =>
    apply Later.of_lt
    have := hf (id :: ids) c.bump
    simp only [List.isEmpty_cons, Bool.false_eq_true, if_false]
    rw [this]
    simp [bump]

theorem act_later {c : Core I A} (hc : Good cfg c) (x : Act I A) : Later c (c.act cfg env x) := by
  cases x with
  | alive a ok off now =>
    obtain ⟨m0, hm0, hlo⟩ := hc.inv.loc
    apply processAlive_cases cfg env c a ok off now (fun c' => Later c c')
    · exact .refl _
    · intro _ _ _ _ _ _
      exact Later.of_eq (by simp [Core.emit, Event.isMembership]) rfl
    · intro _ _ _ _ _ _; exact Later.of_eq rfl rfl
    · intro _ _ _ _ _
      exact ⟨Nat.le_refl _, fun _ => by simp only [clearSuspicion]; rw [tableStates_susp]⟩
    · intro _ _ _ _ _ _
      refine Later.trans ?_ (refute_later _ _)
      exact ⟨Nat.le_refl _, fun _ => by simp only [clearSuspicion]; rw [tableStates_susp]⟩
    · intro _ _ _ _ _ _ _; exact Later.of_lt (adopted_later ..)
    · intro _ _ _ _ _ _ _; exact Later.of_lt (adopted_later ..)
    · intro _ _ _ _ _; exact Later.of_lt (adopted_later (c.withPlaceholder a off now) ..)
    · rw [hm0]; rfl
    · intro m hl hm
      have := (hc.inv.local_get hm).state
      rw [hl] at this
      simpa using this
    · exact hc.inv.nodup
  | suspect s now =>
    apply processSuspect_cases cfg env c s now (fun c' => Later c c')
    · exact .refl _
    · intro _ _ _ _ _ _ _ _ _
      refine ⟨Nat.le_refl _, fun _ => ?_⟩
      simp only [broadcast]
      rw [tableStates_susp]
    · intro _ _ _ _ _ _; exact refute_later _ _
    · intro _ _ _ _ _ _ _ _ _ _; exact Later.of_lt (by simp [broadcast, bump])
  | dead d now => exact processDead_later _ _ _
  | expire now =>
    simp only [act]
    split
    · unfold fireExpiredSuspicions
      generalize c.expiredIds now = ids
      have : ∀ (ids : List I) (c : Core I A), Later c (ids.foldl (expireOne cfg env now) c) := by
        intro ids
        induction ids with
        | nil => intro c; exact .refl _
        | cons id ids ih =>
          intro c
          rw [List.foldl_cons]
          exact (processDead_later _ _ _).trans (ih _)
      exact this ids c
    · exact .refl _
  | reset pick now => exact resetNodes_later _ _ _
  | updateMeta md =>
    simp only [act]
    split
    · exact Later.of_lt (by simp [Core.updateMeta, Core.emit, Event.isMembership, broadcast, nextIncarnation])
    · exact .refl _
  | push ev => simp only [act]; split <;> exact Later.of_eq rfl rfl
  | pop => exact Later.of_eq rfl rfl
  | dropDials => exact Later.of_eq rfl rfl
  | fail sev => exact Later.of_lt (by simp [act, bump])
  | success => exact Later.of_lt (by simp [act, bump])
  | drain o l => exact Later.of_eq rfl rfl
  | one l => exact Later.of_eq rfl rfl
  | leave now =>
    simp only [act]
    split
    · unfold beginLeave
      dsimp only
      exact Later.trans (b := { c with lifecycle := .leaving, events := c.events.filter (fun e => !e.isDial) })
        (Later.of_eq rfl rfl) (processDead_later _ _ _)
    · exact .refl _

theorem acts_later {P : Act I A → Prop} {c c' : Core I A} (h : Acts cfg env P c c') (hg : Good cfg c) : Later c c' :=
  h.inductGood (Q := fun c' => Later c c') hg (.refl _) (fun _ x _ hc hq => hq.trans (act_later hc x))

/-! ### Elementary steps -/

omit [DecidableEq I] [DecidableEq A] in
theorem sendFarewells_other (e : Ep I A) (l : List A) (ps : List Bytes) (d : BadState I) :
    other (e.sendFarewells l ps d) = other e := by
  unfold sendFarewells
  induction l generalizing e with
  | nil => rfl
  | cons a l ih =>
    rw [List.foldl_cons, ih]
    split <;> rfl

theorem farewellPayloads_other (e : Ep I A) (d : BadState I) (f : Option Bytes) :
    other (e.farewellPayloads cfg env d f).1 = other e := by
  unfold farewellPayloads drainUser
  dsimp only
  split <;> rfl

theorem micro_other {op : Op I A} {late : Bool} {a b : Ep I A} (hm : Micro cfg env op late a b) :
    OtherStep cfg op a b := by
  cases hm with
  | core x hx => exact .same rfl
  | aux _ hc hn hf hu hp ho => exact ho
  | send t ht => exact .same rfl
  | dial id peer d hr hd => exact .same rfl
  | start seq p a hs hr hw hlt => exact .same rfl
  | alloc seq hs => exact .same rfl
  | dispatched seq b hlt => exact .same rfl
  | fail seq p now hp hw hr hlt =>
    refine .same ?_
    unfold probeTerminateFailure
    (repeat' split) <;> rfl
  | done seq p direct payload now hp hd hw hr hlt =>
    refine .same ?_
    unfold completeProbeSuccess probeTerminateFailure
    (repeat' split) <;> rfl
  | nack src seq now ho =>
    refine .same ?_
    unfold handleNack
    (repeat' split) <;> rfl
  | fan seq p now peers st ho hp hk hph hd hf hl hnd ha hfit hlt => exact .same rfl
  | fwd seq src p now ho hs hsrc hl hnew => exact .same rfl
  | fwdAnswer seq f hf payload now ho hd => exact .same rfl
  | fwdExpire seq f hf now ho hd => exact .same rfl
  | intent i hr => exact .same rfl
  | intentDial i hr hw => exact .same rfl
  | skipId => exact .same rfl
  | unintent id hw => exact .same rfl
  | retire seq => exact .same rfl
  | gossip targets now ho hr => exact .same ((sendAll_other _ _ _).trans (drainGossip_other _))
  | leave now f ho hr =>
    have h : other (a.leaveWith cfg env now f) = (none, none, none, a.cached, a.cachedVer, a.cachedDirty, a.localState) := by
      unfold leaveWith
      rw [if_neg (by simp [hr])]
      dsimp only
      split
      · rfl
      · refine (sendFarewells_other _ _ _ _).trans ?_
        exact (farewellPayloads_other (cfg := cfg) (env := env) _ _ f).trans rfl
    simp only [other, Prod.mk.injEq] at h
    obtain ⟨h1, h2, h3, h4, h5, h6, h7⟩ := h
    exact ⟨by simp [h1], by simp [h2], by simp [h3], .inl ⟨h4, h5, .inl ⟨h6, h7⟩⟩⟩
  | poll ho =>
    refine .same ?_
    unfold pollTransmit
    split
    · rfl
    · dsimp only
      split
      · rfl
      · split <;> rfl

/-! ### The invariant -/

/-- The schedules have positive intervals, and the cached response is not newer than the table, lists it if it has the
same version, and carries the current snapshot unless it is marked as outdated. -/
structure OtherOk (cfg : Cfg I A) (e : Ep I A) : Prop where
  probe : e.nextProbe.isSome → 0 < cfg.probeInterval
  gossip : e.nextGossip.isSome → 0 < cfg.gossipInterval
  push : e.nextPushPull.isSome → 0 < cfg.pushPullInterval
  ver : e.cachedVer ≤ e.core.snapVer
  states : e.cachedVer = e.core.snapVer → e.cached.states.Perm (tableStates e.core.members)
  data : e.cachedDirty = false → e.cached.userData = e.localState
  join : e.cached.join = false

theorem OtherOk.step {op : Op I A} {a b : Ep I A} (h : OtherOk cfg a) (hl : Later a.core b.core)
    (ho : OtherStep cfg op a b) : OtherOk cfg b := by
  have hp : (b.nextProbe.isSome → 0 < cfg.probeInterval) ∧ (b.nextGossip.isSome → 0 < cfg.gossipInterval) ∧
      (b.nextPushPull.isSome → 0 < cfg.pushPullInterval) :=
    ⟨fun hb => (ho.probe hb).elim h.probe id, fun hb => (ho.gossip hb).elim h.gossip id,
      fun hb => (ho.push hb).elim h.push id⟩
  obtain ⟨h1, h2⟩ := hl
  have hv := h.ver
  rcases ho.cache with ⟨c1, c2, c3⟩ | ⟨c1, c2, c3, _⟩
  · refine ⟨hp.1, hp.2.1, hp.2.2, by omega, fun he => ?_, fun hd => ?_, by rw [c1]; exact h.join⟩
    · rw [c1]
      exact (h.states (by omega)).trans (h2 (by omega)).symm
    · rcases c3 with ⟨c4, c5⟩ | ⟨c4, _⟩
      · rw [c1, c5]; exact h.data (by rw [← c4]; exact hd)
      · rw [c4] at hd; cases hd
  · refine ⟨hp.1, hp.2.1, hp.2.2, by omega, fun he => ?_, fun hd => ?_, by rw [c1]; rfl⟩
    · rw [c1]
      exact (h2 (by omega)).symm
    · rw [c1, c3]; rfl

theorem reachable_other {e : Ep I A} (h : Reachable cfg env e) : OtherOk cfg e := by
  refine reachable_induct (P := fun e => OtherOk cfg e) h ?_ ?_
  · intro now e0 h0
    rw [tryNew_eq h0]
    unfold refreshCache
    rw [if_neg (by simp)]
    exact ⟨by simp, by simp, by simp, Nat.le_refl _, fun _ => .refl _, fun _ => rfl, rfl⟩
  · intro e op hr hq
    exact step_micro_induct (Q := fun e => OtherOk cfg e) hr op hq
      (fun late a b hg _ hq hm => hq.step (acts_later (micro_acts hm) hg) (micro_other hm))

/-- Only servicing the timers and changing the compression replace the cached response. -/
theorem step_cached {e : Ep I A} (h : Reachable cfg env e) (op : Op I A) (h1 : ∀ now, op ≠ .timeout now)
    (h2 : op ≠ .setResponseCompression) :
    (e.step cfg env op).1.cached = e.cached ∧
      ((∀ b, op ≠ .setLocalState b) → (e.step cfg env op).1.localState = e.localState) := by
  refine step_micro_induct (Q := fun e' => e'.cached = e.cached ∧
      ((∀ b, op ≠ .setLocalState b) → e'.localState = e.localState)) h op ⟨rfl, fun _ => rfl⟩ ?_
  intro late a b _ _ hq hm
  rcases (micro_other hm).cache with ⟨c1, c2, c3⟩ | ⟨_, _, _, ⟨now, rfl⟩ | rfl⟩
  · refine ⟨c1.trans hq.1, fun hb => ?_⟩
    rcases c3 with ⟨_, c⟩ | ⟨_, c | c⟩
    · exact c.trans (hq.2 hb)
    · exact c.trans (hq.2 hb)
    · exact absurd c (hb _)
  · exact absurd rfl (h1 now)
  · exact absurd rfl h2

omit [DecidableEq I] [DecidableEq A] in
/-- After refreshing, the response is up to date. -/
theorem refreshCache_fresh (e : Ep I A) :
    e.refreshCache.cachedVer = e.refreshCache.core.snapVer ∧ e.refreshCache.cachedDirty = false := by
  unfold refreshCache
  split
  · rename_i hc; exact ⟨hc.1.symm, hc.2⟩
  · exact ⟨rfl, rfl⟩

end Verif.Ep
