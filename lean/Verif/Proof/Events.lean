import Verif.Proof.Membership
/-
The membership events replay to the live part of the table.
-/
namespace Verif.Ep
open Verif Core Spec
variable {I A : Type} [DecidableEq I] [DecidableEq A]
variable {cfg : Cfg I A} {env : Env I A}

/-- The live part of the table of a core. -/
def vis : Option (Member I A) → Option (A × Bytes)
  | some m => if Live m then some (m.server.addr, m.server.metadata) else none
  | none => none

def lv (c : Core I A) : View I A := fun id => vis (c.members.get id)

omit [DecidableEq A] in
theorem replay_append (v : View I A) (a b : List (Event I A)) :
    replay v (a ++ b) = (replay v a).bind (fun v => replay v b) := by
  induction a generalizing v with
  | nil => rfl
  | cons ev a ih =>
    simp only [List.cons_append, replay]
    cases replay1 v ev with
    | none => rfl
    | some v' => exact ih v'

omit [DecidableEq A] in
theorem replay1_other {ev : Event I A} (h : ev.isMembership = false) (v : View I A) : replay1 v ev = some v := by
  cases ev <;> first | rfl | cases h

omit [DecidableEq A] in
/-- Only membership events matter. -/
theorem replay_filter (v : View I A) (l : List (Event I A)) :
    replay v l = replay v (l.filter Event.isMembership) := by
  induction l generalizing v with
  | nil => rfl
  | cons ev l ih =>
    cases h : ev.isMembership with
    | true =>
      rw [List.filter_cons_of_pos h]
      simp only [replay]
      cases replay1 v ev with
      | none => rfl
      | some v' => exact ih v'
    | false =>
      rw [List.filter_cons_of_neg (by simp [h])]
      simp only [replay, replay1_other h]
      exact ih v

/-- The events added by a change of the core account for the change of the live part of its table. -/
def EvOk (c c' : Core I A) : Prop :=
  ∃ new, c'.events.filter Event.isMembership = c.events.filter Event.isMembership ++ new ∧
    replay (lv c) new = some (lv c')

theorem EvOk.refl (c : Core I A) : EvOk c c := ⟨[], by simp, rfl⟩

theorem EvOk.trans {a b c : Core I A} (h : EvOk a b) (h2 : EvOk b c) : EvOk a c := by
  obtain ⟨n, h1, h3⟩ := h
  obtain ⟨n', h4, h5⟩ := h2
  exact ⟨n ++ n', by rw [h4, h1, List.append_assoc], by rw [replay_append, h3]; exact h5⟩

/-- No event, no visible change. -/
theorem EvOk.of {c c' : Core I A} (h1 : c'.events.filter Event.isMembership = c.events.filter Event.isMembership)
    (h2 : ∀ id, lv c' id = lv c id) : EvOk c c' := by
  refine ⟨[], by rw [h1]; simp, ?_⟩
  rw [show lv c' = lv c from funext h2]
  rfl

/-- One event. -/
theorem EvOk.one {c c' : Core I A} (ev : Event I A) (hm : ev.isMembership = true) (h1 : c'.events = c.events ++ [ev])
    (h2 : replay1 (lv c) ev = some (lv c')) : EvOk c c' := by
  refine ⟨[ev], ?_, ?_⟩
  · rw [h1, List.filter_append]
    congr 1
    rw [List.filter_cons_of_pos hm]
    rfl
  · simp only [replay, h2]
    rfl

theorem lv_eq (c : Core I A) (id : I) : lv c id = vis (c.members.get id) := rfl

theorem vis_some (m : Member I A) : vis (some m) = if Live m then some (m.server.addr, m.server.metadata) else none := rfl

theorem ev_refute (c : Core I A) (h : Inv cfg c) (acc : Nat) : EvOk c (c.refute cfg env acc) := by
  by_cases hl : c.lifecycle = .running
  · obtain ⟨m, hm, _⟩ := h.loc
    refine EvOk.of ?_ ?_
    · rw [refute_running env hl hm]; rfl
    · intro id
      rw [lv_eq, get_refute hl hm]
      split
      · rename_i e; rw [lv_eq, e, hm]; rfl
      · rfl
  · unfold Core.refute
    rw [if_pos hl]
    exact .refl _

theorem ev_suspect {c : Core I A} (h : Inv cfg c) (s : BadState I) (now : Nat) :
    EvOk c (c.processSuspect cfg env s now) := by
  apply processSuspect_cases cfg env c s now (EvOk c) (.refl _)
  · intro m susp susp' d hl hm _ _ _
    refine EvOk.of rfl ?_
    intro id
    show vis (Table.get (c.members.update s.node _) id) = _
    rw [Table.get_update _ _ _ _ (by intro m hm; exact hm)]
    split
    · rename_i e
      rw [lv_eq, e, hm]; rfl
    · rfl
  · intros; exact ev_refute c h _
  · intro m mn mx hl hm _ _ hst _ _
    refine EvOk.of rfl ?_
    intro id
    show vis (Table.get ((c.members.update s.node _).update s.node _) id) = _
    rw [update_update _ _ _ _ (by intro m hm; exact hm), Table.get_update _ _ _ _ (by intro m hm; exact hm)]
    split
    · rename_i e
      rw [lv_eq, e, hm]
      have h1 : Live m := .inl hst
      rw [Option.map_some, vis_some, vis_some, if_pos h1]
      exact if_pos (Or.inr rfl)
    · rfl

theorem ev_killed {c : Core I A} {d : BadState I} {m : Member I A} {st : NState} {now : Nat}
    (hm : c.members.get d.node = some m) (hl : Live m) (hst : st = .dead ∨ st = .left) :
    EvOk c (c.killed env d m st now) := by
  refine EvOk.one (.nodeLeft m.server) rfl rfl ?_
  have hid : m.server.id = d.node := Table.get_id hm
  have h1 : lv c m.server.id = some (m.server.addr, m.server.metadata) := by
    rw [lv_eq, hid, hm]; exact if_pos hl
  simp only [replay1, h1, Option.isSome_some, if_true]
  congr 1
  funext id
  rw [lv_eq, get_killed hm]
  simp only [View.put, hid]
  split
  · rename_i e
    have : ¬ Live { m with susp := none, incarnation := d.incarnation, state := st, stateChange := now } := by
      rintro (h | h) <;> rcases hst with h' | h' <;> simp [h'] at h
    rw [vis_some, if_neg this]
  · rfl

theorem not_down_live {g : Nat} {m : Member I A} (h : MemOk g m) (h1 : m.state ≠ .dead) (h2 : m.state ≠ .left) : Live m := by
  rcases h.known with h | h | h | h
  · exact .inl h
  · exact .inr h
  · exact absurd h h1
  · exact absurd h h2

theorem ev_dead {c : Core I A} (h : Inv cfg c) (d : BadState I) (now : Nat) :
    EvOk c (c.processDead cfg env d now) := by
  apply processDead_cases cfg env c d now (EvOk c) (.refl _)
  · intros; exact ev_refute c h _
  · intro m hm _ h1 h2 _ _
    exact ev_killed hm (not_down_live (h.mem _ _ hm) h1 h2) (.inr rfl)
  · intro m hm _ h1 h2 _ _
    refine ev_killed hm (not_down_live (h.mem _ _ hm) h1 h2) ?_
    split <;> simp

theorem adopted_events {c : Core I A} {a : Alive I A} {upd : Bool} {m : Member I A} {now : Nat} :
    (c.adopted env a upd m now).events = c.events ++ (adoptEvent a m).toList := by
  unfold Core.adopted
  dsimp only
  split
  · rename_i h; rw [h]; rfl
  · rename_i h; rw [h]; simp [bump, broadcast, clearSuspicion]

/-- Adopting a claim over a record `m`; a live record keeps its address. -/
theorem ev_adopted {c c0 : Core I A} (he : c.events = c0.events) {a : Alive I A} {upd : Bool} {m m0 : Member I A} {now : Nat}
    (hm : c.members.get a.node.id = some m) (hst : m0.state = m.state) (hmd : m0.server.metadata = m.server.metadata)
    (hlv : ∀ id, lv c id = lv c0 id)
    (haddr : Live m → m.server.addr = a.node.addr) (hk : MemOk c.nextGen m) :
    EvOk c0 (c.adopted env a upd m0 now) := by
  obtain ⟨f1, f2, f3, f4, f5, f6⟩ := adoptAlive_fields a (if upd then some c.nextGen else none) now
    { m with susp := none }
  have hnew : ∀ id, lv (c.adopted env a upd m0 now) id =
      if id = a.node.id then some (a.node.addr, a.metadata) else lv c0 id := by
    intro id
    rw [lv_eq, get_adopted hm]
    split
    · rw [vis_some, if_pos (.inl f1), f3]
      rfl
    · rw [← hlv, lv_eq]
  have hold : lv c0 a.node.id = if Live m then some (m.server.addr, m.server.metadata) else none := by
    rw [← hlv, lv_eq, hm]; rfl
  have hev := adopted_events (env := env) (c := c) (a := a) (upd := upd) (m := m0) (now := now)
  rw [he] at hev
  by_cases hl : Live m
  · rw [if_pos hl] at hold
    have hnd : ¬ (m0.state = .dead ∨ m0.state = .left) := by
      rw [hst]; exact live_not_down hl
    by_cases hmeta : m.server.metadata = a.metadata
    · have : adoptEvent a m0 = none := by
        unfold adoptEvent
        rw [if_neg hnd, if_neg (by rw [hmd]; simp [hmeta])]
      rw [this] at hev
      refine EvOk.of (by rw [hev]; simp) ?_
      intro id
      rw [hnew]
      split
      · rename_i e; rw [e, hold, haddr hl, hmeta]
      · rfl
    · have : adoptEvent a m0 = some (.nodeUpdated (nodeOf a .alive)) := by
        unfold adoptEvent
        rw [if_neg hnd, if_pos (by rw [hmd]; exact hmeta)]
      rw [this] at hev
      refine EvOk.one _ rfl hev ?_
      simp only [replay1]
      rw [if_pos (by show (lv c0 a.node.id).isSome = true; rw [hold]; rfl)]
      congr 1
      funext id
      rw [hnew]
      rfl
  · rw [if_neg hl] at hold
    have hd : m0.state = .dead ∨ m0.state = .left := by
      rw [hst]
      rcases hk.known with h | h | h | h
      · exact absurd (.inl h) hl
      · exact absurd (.inr h) hl
      · exact .inl h
      · exact .inr h
    have : adoptEvent a m0 = some (.nodeJoined (nodeOf a .alive)) := by
      unfold adoptEvent
      rw [if_pos hd]
    rw [this] at hev
    refine EvOk.one _ rfl hev ?_
    simp only [replay1]
    rw [if_pos (by show (lv c0 a.node.id).isNone = true; rw [hold]; rfl)]
    congr 1
    funext id
    rw [hnew]
    rfl

theorem get_withPlaceholder {c : Core I A} (h : Inv cfg c) (a : Alive I A) (off now : Nat)
    (hn : c.members.get a.node.id = none) (id : I) :
    (c.withPlaceholder a off now).members.get id =
      if id = a.node.id then some (placeholder a c.nextGen now) else c.members.get id := by
  have hp : (c.withPlaceholder a off now).members.Perm (placeholder a c.nextGen now :: c.members) :=
    Table.insertAt_perm _ _ _
  have hnd : ((placeholder a c.nextGen now :: c.members).map Member.id).Nodup := by
    rw [List.map_cons, List.nodup_cons]
    exact ⟨Table.get_eq_none.1 hn, h.nodup⟩
  rw [Table.get_perm hnd hp, Table.get_cons]
  by_cases e : id = a.node.id
  · rw [if_pos e]; exact if_pos e.symm
  · rw [if_neg e]; exact if_neg (fun h => e h.symm)

theorem ev_alive {c : Core I A} (h : Inv cfg c) (a : Alive I A) (ok : Bool) (off now : Nat) :
    EvOk c (c.processAlive cfg env a ok off now) := by
  have hclear : ∀ id, EvOk c (c.clearSuspicion id) := by
    intro id
    refine EvOk.of rfl ?_
    intro i
    show vis (Table.get (c.members.update id _) i) = _
    rw [Table.get_update _ _ _ _ (by intro m hm; exact hm)]
    split
    · rename_i e
      rw [lv_eq, e]
      cases c.members.get id <;> rfl
    · rfl
  apply processAlive_cases cfg env c a ok off now (EvOk c) (.refl _)
  · intros
    refine EvOk.of ?_ (fun _ => rfl)
    show (c.events ++ [_]).filter Event.isMembership = _
    simp [Event.isMembership]
  · intros; exact EvOk.of rfl (fun _ => rfl)
  · intros; exact hclear _
  · intro m _ _ _ hid _
    exact (hclear _).trans (ev_refute _ (h.clearLocal hid) _)
  · intro m _ _ hm _ haddr _
    exact ev_adopted rfl hm rfl rfl (fun _ => rfl) (fun _ => haddr) (h.mem _ _ hm)
  · intro m _ _ hm _ _ hrec
    refine ev_adopted rfl hm rfl rfl (fun _ => rfl) ?_ (h.mem _ _ hm)
    intro hl
    exfalso
    refine live_not_down hl ?_
    rcases hrec with h | ⟨h, _⟩
    · exact .inr h
    · exact .inl h
  · intro _ _ hn hid _
    have hget := get_withPlaceholder h a off now hn
    refine ev_adopted (c := c.withPlaceholder a off now) (c0 := c) (m := placeholder a c.nextGen now) rfl
      (by rw [hget, if_pos rfl]) rfl rfl ?_ ?_ ⟨?_, ?_, ?_, ?_⟩
    · intro id
      rw [lv_eq, hget]
      split
      · rename_i e
        rw [lv_eq, e, hn]
        rfl
      · rfl
    · intro hl
      rcases hl with h | h <;> cases h
    · simp [placeholder]
    · exact .inr (.inr (.inl rfl))
    · obtain ⟨m, hm, _⟩ := h.loc
      have h1 := (h.mem _ _ hm).gpos
      have h2 := (h.mem _ _ hm).gen
      show 0 < c.nextGen
      omega
    · show c.nextGen < c.nextGen + 1
      omega
  · obtain ⟨m, hm, _⟩ := h.loc
    rw [hm]; rfl
  · intro m hl hm
    have := (h.local_get hm).state
    rw [hl] at this
    simpa using this
  · exact h.nodup

/-- Every action but handing out an event. -/
theorem ev_act {c : Core I A} (h : Good cfg c) (x : Act I A) (hx : x ≠ .pop) : EvOk c (act cfg env c x) := by
  have hi := h.inv
  cases x with
  | pop => exact absurd rfl hx
  | alive a ok off now => exact ev_alive hi a ok off now
  | suspect s now => exact ev_suspect hi s now
  | dead d now => exact ev_dead hi d now
  | expire now =>
    simp only [act]
    split
    · unfold fireExpiredSuspicions
      generalize c.expiredIds now = ids
      have hs := h.settled
      clear h hx
      rename_i h
      clear h
      induction ids generalizing c with
      | nil => exact .refl _
      | cons id ids ih =>
        rw [List.foldl_cons]
        refine (ev_dead hi _ now).trans (ih (hi.processDead env _ now (fun e => absurd e hs)) ?_)
        have : (expireOne cfg env now c id).lifecycle = c.lifecycle := processDead_lifecycle _ _ _ hs
        exact fun e => hs (this.symm.trans e)
    · exact .refl _
  | reset pick now =>
    simp only [act]
    refine EvOk.of ?_ ?_
    · congr 1
      unfold Core.resetNodes
      dsimp only
      generalize (c.members.filter (fun m => reapable cfg m now)).map Member.id = ids
      have h0 : (if ids.isEmpty then c else c.bump).events = c.events := by split <;> rfl
      rw [← h0]
      generalize (if ids.isEmpty then c else c.bump) = c1
      clear h0
      induction ids generalizing c1 with
      | nil => rfl
      | cons id ids ih => rw [List.foldl_cons, ih]
    · intro id
      rw [lv_eq, resetNodes_get hi, lv_eq]
      cases c.members.get id with
      | none => rfl
      | some m =>
        dsimp only
        split
        · rename_i hr
          simp only [reapable, Bool.and_eq_true, decide_eq_true_eq] at hr
          exact (if_neg (fun hl => live_not_down hl hr.1.2)).symm
        · rfl
  | updateMeta md =>
    simp only [act]
    split
    · rename_i hl
      obtain ⟨m, hm, hlo⟩ := hi.loc
      have hst : m.state = .alive := by have := hlo.state; rw [hl] at this; simpa using this
      refine EvOk.one (.nodeUpdated _) rfl rfl ?_
      simp only [replay1]
      rw [if_pos (by
        show (lv c cfg.localId).isSome = true
        rw [lv_eq, hm, vis_some, if_pos (show Live m from .inl hst)]
        rfl)]
      congr 1
      funext id
      show _ = vis (Table.get (c.members.update cfg.localId _) id)
      rw [Table.get_update _ _ _ _ (by intro m _; rfl)]
      simp only [View.put]
      split
      · rename_i e
        rw [e, hm]
        exact (if_pos (Or.inl hst)).symm
      · rfl
    · exact .refl _
  | push ev =>
    simp only [act]
    split
    · exact .refl _
    · rename_i hm
      refine EvOk.of ?_ (fun _ => rfl)
      simp [hm]
  | dropDials =>
    refine EvOk.of ?_ (fun _ => rfl)
    simp only [act, List.filter_filter]
    congr 1
    funext ev
    cases ev <;> rfl
  | leave now =>
    simp only [act]
    split
    · rename_i hl
      obtain ⟨m, hm, hlo⟩ := hi.loc
      have hst : m.state = .alive := by have := hlo.state; rw [hl] at this; simpa using this
      rw [beginLeave_eq env hm hlo.inc hst]
      refine EvOk.trans (b := { c with lifecycle := .leaving, events := c.events.filter (fun e => !e.isDial) }) ?_ ?_
      · refine EvOk.of ?_ (fun _ => rfl)
        simp only [List.filter_filter]
        congr 1
        funext ev
        cases ev <;> rfl
      · exact ev_killed (c := { c with lifecycle := .leaving, events := c.events.filter (fun e => !e.isDial) })
          (d := { incarnation := c.incarnation, node := cfg.localId, src := cfg.localId }) hm (.inl hst) (.inr rfl)
    · exact .refl _
  | _ => exact EvOk.of rfl (fun _ => rfl)

/-- One call other than `poll_event`. -/
theorem ev_step {e : Ep I A} (hg : Good cfg e.core) (op : Op I A) (hop : op ≠ .pollEvent) :
    EvOk e.core (e.step cfg env op).1.core := by
  refine (step_acts e op).inductGood (Q := fun c => EvOk e.core c) hg (.refl _) ?_
  intro c x hx hc hq
  refine hq.trans (ev_act hc x ?_)
  rintro rfl
  cases hx
  exact hop rfl

theorem outs_append (e : Ep I A) (a b : List (Op I A)) :
    Ep.outs cfg env e (a ++ b) = Ep.outs cfg env e a ++ Ep.outs cfg env (Ep.run cfg env e a) b := by
  induction a generalizing e with
  | nil => rfl
  | cons op a ih => simp only [List.cons_append, Ep.outs, ih]; rfl

/-- The event a call hands out. -/
def eventOf : Out I A → Option (Event I A)
  | .event ev => ev
  | _ => none

theorem reported_eq (e0 : Ep I A) (ops : List (Op I A)) : reported cfg env e0 ops =
    (Ep.outs cfg env e0 ops).filterMap eventOf ++ (Ep.run cfg env e0 ops).core.events := by
  unfold reported
  congr 2

theorem eventOf_step (e : Ep I A) (op : Op I A) (hop : op ≠ .pollEvent) : eventOf (e.step cfg env op).2 = none := by
  cases op <;> first | rfl | exact absurd rfl hop

theorem lv_init (now : Nat) : replay (fun _ => none) (Core.init cfg env now).events = some (lv (Core.init cfg env now)) := by
  have : (Core.init cfg env now).events = [.nodeJoined { id := cfg.localId, addr := cfg.advertise
                                                         metadata := cfg.initialMeta, state := .alive
                                                         pv := cfg.pv, dv := cfg.dv }] := rfl
  rw [this]
  show some _ = some _
  congr 1
  funext id
  show (if id = cfg.localId then _ else _) = _
  rw [lv_eq]
  show _ = vis (Table.get (_ :: []) id)
  rw [Table.get_cons]
  by_cases e : id = cfg.localId
  · rw [if_pos e, if_pos (by exact e.symm)]
    rw [vis_some, if_pos (show Live _ from Or.inl rfl)]
  · rw [if_neg e, if_neg (fun h => e h.symm)]
    rfl

theorem replay_run {t0 : Nat} {e0 : Ep I A} (h0 : tryNew cfg env t0 = .ok e0) (ops : List (Op I A)) :
    replay (fun _ => none) (reported cfg env e0 ops) = some (lv (Ep.run cfg env e0 ops).core) := by
  induction ops using snoc_induction with
  | h0 =>
    rw [reported_eq]
    show replay _ ([] ++ e0.core.events) = some (lv e0.core)
    rw [tryNew_core h0]
    exact lv_init _
  | h1 ops op ih =>
    rw [reported_eq] at ih ⊢
    rw [outs_append, List.filterMap_append, run_snoc]
    show replay _ ((_ ++ [(Ep.step cfg env (Ep.run cfg env e0 ops) op).2].filterMap eventOf) ++ _) = _
    have hg := reachable_good (reachable_run (reachable_new h0) ops)
    generalize Ep.run cfg env e0 ops = e at *
    by_cases hop : op = .pollEvent
    · subst hop
      have hcore : (e.step cfg env .pollEvent).1.core = { e.core with events := e.core.events.tail } := by
        show (e.pollEvent).1.core = _
        unfold pollEvent
        split
        · rename_i h; rw [h]; simp only [List.tail_nil]; rw [← h]
        · rename_i h; rw [h]; rfl
      have hev : [(e.step cfg env .pollEvent).2].filterMap eventOf ++ e.core.events.tail = e.core.events := by
        show [Out.event (e.pollEvent).2].filterMap eventOf ++ e.core.events.tail = e.core.events
        unfold pollEvent
        split
        · rename_i h; rw [h]; rfl
        · rename_i h; rw [h]; rfl
      rw [hcore, List.append_assoc, hev, ih]
      rfl
    · rw [show [(e.step cfg env op).2].filterMap eventOf = [] by
        simp [List.filterMap, eventOf_step e op hop]]
      rw [List.append_nil]
      obtain ⟨new, h1, h2⟩ := ev_step (cfg := cfg) (env := env) hg op hop
      rw [replay_append] at ih ⊢
      cases hr : replay (fun _ => none) ((Ep.outs cfg env e0 ops).filterMap eventOf) with
      | none => rw [hr] at ih; cases ih
      | some v =>
        rw [hr] at ih
        simp only [Option.bind_some] at ih ⊢
        rw [replay_filter] at ih ⊢
        rw [h1, replay_append, ih]
        exact h2

end Verif.Ep
