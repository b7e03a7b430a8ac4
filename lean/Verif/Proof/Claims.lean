import Verif.Proof.Membership
import Verif.Proof.CoreQueue
/-
Proofs about the effect of single claims.
-/
namespace Verif.Ep
open Verif Core Spec
variable {I A : Type} [DecidableEq I] [DecidableEq A]
variable {cfg : Cfg I A} {env : Env I A}

theorem reachable_qok {e : Ep I A} (h : Reachable cfg env e) : QOk env e.core.bcast :=
  (reachable_induct (P := fun e => Good cfg e.core ∧ QOk env e.core.bcast) h
    (fun now e0 h0 => by rw [tryNew_core h0]; exact ⟨good_init now, qok_init now⟩)
    (fun e op _ hg => ⟨(step_acts e op).good hg.1,
      (step_acts e op).inductGood (Q := fun c => QOk env c.bcast) hg.1 hg.2
        (fun _ x _ hc hq => (qs_act hc x).ok hq)⟩)).2

/-- After queueing a claim about `id` it is the only one about `id`. -/
theorem queued_only {q : BQueue I (I × Message I A)} (h : QOk env q) (hc : q.calls < U64_MAX) (id : I)
    (msg : Message I A) :
    ∃ b ∈ (q.queueBroadcast (Core.ops env) (id, msg)).1.q, b.broadcast = (id, msg) ∧ b.transmits = 0 ∧
      ∀ b' ∈ (q.queueBroadcast (Core.ops env) (id, msg)).1.q, b'.broadcast.1 = id → b' = b := by
  obtain ⟨hi, hg⟩ := h (by omega)
  obtain ⟨hi', _, _, _, lb, rest, hp, _, _, ht, hb, _⟩ := hi.queueBroadcast (id, msg) (by omega)
  have hm : lb ∈ (q.queueBroadcast (Core.ops env) (id, msg)).1.q := hp.mem_iff.2 (by simp)
  refine ⟨lb, hm, hb, ht, ?_⟩
  intro b' hb' hid
  exact hi'.bid_inj (i := id) hb' hm (by show some b'.broadcast.1 = _; rw [hid])
    (by show some lb.broadcast.1 = _; rw [hb])

/-- The state after broadcasting. -/
theorem announces_of {e : Ep I A} {q : BQueue I (I × Message I A)} (h : QOk env q) (hc : q.calls < U64_MAX) {id : I}
    {msg : Message I A} (he : e.core.bcast = (q.queueBroadcast (Core.ops env) (id, msg)).1) : Announces e id msg := by
  unfold Announces
  rw [he]
  exact queued_only h hc id msg

theorem packet_suspect {e : Ep I A} (hr : e.core.lifecycle = .running) (src : A) (s : BadState I) (now : Nat) :
    (e.step cfg env (.packet src (.suspect s) now)).1 = { e with core := e.core.processSuspect cfg env s now } := by
  show e.handlePacket cfg env src (.suspect s) now = _
  unfold handlePacket
  rw [if_neg (by simp [hr])]

theorem packet_dead {e : Ep I A} (hr : e.core.lifecycle = .running) (src : A) (s : BadState I) (now : Nat) :
    (e.step cfg env (.packet src (.dead s) now)).1 = { e with core := e.core.processDead cfg env s now } := by
  show e.handlePacket cfg env src (.dead s) now = _
  unfold handlePacket
  rw [if_neg (by simp [hr])]

theorem packet_alive {e : Ep I A} (hr : e.core.lifecycle = .running) (src : A) (a : Alive I A) (now : Nat) :
    (e.step cfg env (.packet src (.alive a) now)).1 = { e with
      core := e.core.processAlive cfg env a (env.aliveOk e.tick (Core.nodeOf a .alive)) (env.tape e.tick 0) now
      tick := e.tick + 1 } := by
  show e.handlePacket cfg env src (.alive a) now = _
  unfold handlePacket
  rw [if_neg (by simp [hr])]
  rfl

theorem packet_not_running {e : Ep I A} (hr : e.core.lifecycle ≠ .running) (src : A) (msg : Message I A) (now : Nat) :
    (e.step cfg env (.packet src msg now)).1 = e := by
  show e.handlePacket cfg env src msg now = _
  unfold handlePacket
  rw [if_pos hr]

/-- A refutation by a running node. -/
theorem refute_spec {e : Ep I A} {c' : Core I A} (hr : e.core.lifecycle = .running) (hg : Good cfg e.core)
    (hq : QOk env e.core.bcast) (hc : QueueFresh e) {m : Member I A} (hm : member e cfg.localId = some m) {acc t : Nat}
    (h : c' = e.core.refute cfg env acc) :
    member { e with core := c', tick := t } cfg.localId = some { m with incarnation := refuteInc m.incarnation acc } ∧
    c'.lifecycle = .running ∧
    Announces { e with core := c', tick := t } cfg.localId (.alive (aliveOf m.server (refuteInc m.incarnation acc))) := by
  have hlo := hg.inv.local_get hm
  have hid : m.server.id = cfg.localId := Table.get_id hm
  have hinc := hlo.inc
  subst h
  refine ⟨?_, ?_, ?_⟩
  · show (e.core.refute cfg env acc).members.get cfg.localId = _
    rw [get_refute hr hm, if_pos rfl, hinc]
  · rw [refute_lifecycle]; exact hr
  · refine announces_of (q := e.core.bcast) hq hc ?_
    show (e.core.refute cfg env acc).bcast = _
    rw [refute_running env hr hm, hid, hinc]
    rfl

theorem suspect_local {c : Core I A} (hr : c.lifecycle = .running) (hi : Inv cfg c) {m : Member I A}
    (hm : c.members.get cfg.localId = some m) {s : BadState I} (hn : s.node = cfg.localId) (now : Nat)
    (h : m.incarnation ≤ s.incarnation) : c.processSuspect cfg env s now = c.refute cfg env s.incarnation := by
  have hlo := hi.local_get hm
  have hst : m.state = .alive := by have := hlo.state; rw [hr] at this; simpa using this
  unfold processSuspect
  rw [if_neg (by simp [hr]), hn, hm]
  dsimp only
  rw [if_neg (by omega), hi.local_susp hm]
  dsimp only
  rw [if_neg (by simp [hst]), if_pos rfl]

theorem dead_local {c : Core I A} (hr : c.lifecycle = .running) (hi : Inv cfg c) {m : Member I A}
    (hm : c.members.get cfg.localId = some m) {s : BadState I} (hn : s.node = cfg.localId) (now : Nat)
    (h : m.incarnation ≤ s.incarnation) : c.processDead cfg env s now = c.refute cfg env s.incarnation := by
  have hlo := hi.local_get hm
  have hst : m.state = .alive := by have := hlo.state; rw [hr] at this; simpa using this
  unfold processDead
  rw [hn, hm]
  dsimp only
  rw [if_neg (by omega), if_neg (by simp [hst]), if_pos rfl, if_pos (by simp [hr])]

theorem clearSuspicion_local {c : Core I A} (hi : Inv cfg c) :
    (c.clearSuspicion cfg.localId).members = c.members := by
  obtain ⟨m, hm, _⟩ := hi.loc
  show c.members.update cfg.localId _ = c.members
  have : ∀ x ∈ c.members, (if x.id = cfg.localId then { x with susp := none } else x) = x := by
    intro x hx
    split
    · rename_i e
      have h1 := (Table.get_iff hi.nodup).2 ⟨hx, rfl⟩
      rw [e, hm] at h1
      cases h1
      rw [← hi.local_susp hm]
    · rfl
  unfold Table.update
  rw [List.map_congr_left this]
  exact List.map_id'' (fun _ => rfl) _

theorem stale_suspect {e : Ep I A} {m : Member I A} {s : BadState I} (h : member e s.node = some m)
    (hi : s.incarnation < m.incarnation) (src : A) (now : Nat) :
    (e.step cfg env (.packet src (.suspect s) now)).1 = e := by
  by_cases hr : e.core.lifecycle = .running
  · rw [packet_suspect hr]
    have : e.core.processSuspect cfg env s now = e.core := by
      unfold processSuspect
      rw [if_neg (by simp [hr]), ← member_eq, h]
      dsimp only
      rw [if_pos hi]
    rw [this]
  · exact packet_not_running hr _ _ _

theorem stale_dead {e : Ep I A} {m : Member I A} {s : BadState I} (h : member e s.node = some m)
    (hi : s.incarnation < m.incarnation) (src : A) (now : Nat) :
    (e.step cfg env (.packet src (.dead s) now)).1 = e := by
  by_cases hr : e.core.lifecycle = .running
  · rw [packet_dead hr]
    have : e.core.processDead cfg env s now = e.core := by
      unfold processDead
      rw [← member_eq, h]
      dsimp only
      rw [if_pos hi]
    rw [this]
  · exact packet_not_running hr _ _ _

theorem stale_alive {e : Ep I A} {m : Member I A} {a : Alive I A} (h : member e a.node.id = some m)
    (haddr : m.server.addr = a.node.addr)
    (hi : a.incarnation < m.incarnation ∨ (a.incarnation = m.incarnation ∧ a.node.id ≠ cfg.localId)) (src : A) (now : Nat) :
    ∃ t, (e.step cfg env (.packet src (.alive a) now)).1 = { e with tick := t } := by
  by_cases hr : e.core.lifecycle = .running
  · rw [packet_alive hr]
    have : ∀ ok off, e.core.processAlive cfg env a ok off now = e.core := by
      intro ok off
      unfold Core.processAlive
      rw [if_neg (by simp [hr])]
      cases ok with
      | false => rfl
      | true =>
        simp only [Bool.not_true, Bool.false_eq_true, if_false]
        unfold processAliveDecided admitAlive
        rw [← member_eq, h]
        dsimp only
        rw [if_neg (by simp [haddr])]
        dsimp only
        rw [← member_eq, h]
        dsimp only
        by_cases hn : a.node.id = cfg.localId
        · have : a.incarnation < m.incarnation := by
            rcases hi with h | ⟨_, h⟩
            · exact h
            · exact absurd hn h
          simp [hn, this]
        · have : a.incarnation ≤ m.incarnation := by
            rcases hi with h | ⟨h, _⟩ <;> omega
          simp [hn, this]
    rw [this]
    exact ⟨_, rfl⟩
  · exact ⟨e.tick, packet_not_running hr _ _ _⟩

/-- A member that is gone ignores accusations. -/
theorem down_suspect {e : Ep I A} (hg : Good cfg e.core) {m : Member I A} {s : BadState I}
    (h : member e s.node = some m) (hd : Down m) (src : A) (now : Nat) :
    (e.step cfg env (.packet src (.suspect s) now)).1 = e := by
  by_cases hr : e.core.lifecycle = .running
  · rw [packet_suspect hr]
    have hna : m.state ≠ .alive := by rcases hd with hd | hd <;> rw [hd] <;> simp
    have hns : m.susp = none := by
      cases hs : m.susp with
      | none => rfl
      | some x =>
        have := (hg.inv.mem _ _ h).susp.1 (by rw [hs]; rfl)
        rcases hd with hd | hd <;> rw [hd] at this <;> cases this
    have : e.core.processSuspect cfg env s now = e.core := by
      unfold processSuspect
      rw [if_neg (by simp [hr]), ← member_eq, h]
      dsimp only
      split
      · rfl
      · rw [hns]
    rw [this]
  · exact packet_not_running hr _ _ _

theorem down_dead {e : Ep I A} {m : Member I A} {s : BadState I}
    (h : member e s.node = some m) (hd : Down m) (src : A) (now : Nat) :
    (e.step cfg env (.packet src (.dead s) now)).1 = e := by
  by_cases hr : e.core.lifecycle = .running
  · rw [packet_dead hr]
    have : e.core.processDead cfg env s now = e.core := by
      unfold processDead
      rw [← member_eq, h]
      dsimp only
      split
      · rfl
      · exact if_pos hd
    rw [this]
  · exact packet_not_running hr _ _ _

/-- A conflicting claim that may not reclaim the id. -/
theorem conflict {e : Ep I A} (hr : e.core.lifecycle = .running) {m : Member I A} {a : Alive I A}
    (h : member e a.node.id = some m) (haddr : m.server.addr ≠ a.node.addr) {now : Nat} (hn : ¬ MayReclaim cfg m now)
    (hok : env.aliveOk e.tick (nodeOf a .alive) = true) (src : A) :
    (e.step cfg env (.packet src (.alive a) now)).1 =
      { e with core := e.core.emit (.nodeConflict m.server (nodeOf a .alive)), tick := e.tick + 1 } := by
  rw [packet_alive hr, hok]
  congr 1
  unfold Core.processAlive
  rw [if_neg (by simp [hr])]
  simp only [Bool.not_true, Bool.false_eq_true, if_false]
  unfold processAliveDecided admitAlive
  rw [← member_eq, h]
  dsimp only
  rw [if_pos haddr, if_neg (by exact hn)]

/-- A claim the alive filter rejects. -/
theorem vetoed {e : Ep I A} {a : Alive I A} (hok : env.aliveOk e.tick (nodeOf a .alive) = false) (src : A) (now : Nat) :
    ∃ t, (e.step cfg env (.packet src (.alive a) now)).1 = { e with tick := t } := by
  by_cases hr : e.core.lifecycle = .running
  · rw [packet_alive hr, hok]
    refine ⟨e.tick + 1, ?_⟩
    congr 1
    unfold Core.processAlive
    rw [if_neg (by simp [hr])]
    rfl
  · exact ⟨e.tick, packet_not_running hr _ _ _⟩

/-- A record starts a new generation, or gets a new address, only when another address takes the id over. -/
theorem takeover {e : Ep I A} (hg : Good cfg e.core) (op : Op I A) {id : I} {m m' : Member I A}
    (h : member e id = some m) (h' : member (e.step cfg env op).1 id = some m')
    (hc : m'.gen ≠ m.gen ∨ m'.server.addr ≠ m.server.addr) :
    ∃ a now, HearsAlive op a now ∧ a.node.id = id ∧ a.node.addr ≠ m.server.addr ∧ id ≠ cfg.localId ∧
      (MayReclaim cfg m now ∨ ∃ inc, HearsDead id op inc ∧ m.incarnation ≤ inc) := by
  apply Classical.byContradiction
  intro hno
  have key : (∃ m1, (e.step cfg env op).1.core.members.get id = some m1 ∧ m1.gen = m.gen ∧
        m1.server.addr = m.server.addr ∧ m.incarnation ≤ m1.incarnation + (if id = cfg.localId then m.incarnation else 0) ∧
        ((m1.state = m.state ∧ m1.stateChange = m.stateChange) ∨ Live m1 ∨
          (∃ inc, HearsDead id op inc ∧ m.incarnation ≤ inc) ∨ ∀ a now, ¬ HearsAlive op a now)) ∨
      ((e.step cfg env op).1.core.members.get id = none ∧ ∀ a now, ¬ HearsAlive op a now) := by
    refine step_induct (Q := fun c => (∃ m1, c.members.get id = some m1 ∧ m1.gen = m.gen ∧
        m1.server.addr = m.server.addr ∧ m.incarnation ≤ m1.incarnation + (if id = cfg.localId then m.incarnation else 0) ∧
        ((m1.state = m.state ∧ m1.stateChange = m.stateChange) ∨ Live m1 ∨
          (∃ inc, HearsDead id op inc ∧ m.incarnation ≤ inc) ∨ ∀ a now, ¬ HearsAlive op a now)) ∨
      (c.members.get id = none ∧ ∀ a now, ¬ HearsAlive op a now))
      hg op id (.inl ⟨m, h, rfl, rfl, Nat.le_add_right _ _, .inl ⟨rfl, rfl⟩⟩) ?_
    intro c x hx hc hq hch
    rcases hq with ⟨m1, hq, hgen, hadr, hinc, hst⟩ | ⟨hq, hna⟩
    · rw [hq] at hch
      revert hch
      generalize (act cfg env c x).members.get id = o'
      intro hch
      cases hch with
      | same => exact .inl ⟨_, rfl, hgen, hadr, hinc, hst⟩
      | confirm => exact .inl ⟨_, rfl, hgen, hadr, hinc, hst⟩
      | refuted x m acc hid =>
        refine .inl ⟨_, rfl, hgen, hadr, ?_, hst⟩
        rw [if_pos hid]; exact Nat.le_add_left _ _
      | suspected s now m mn mx _ hid _ hi =>
        refine .inl ⟨_, rfl, hgen, hadr, ?_, .inr (.inl (.inr rfl))⟩
        rw [if_neg hid] at hinc ⊢
        dsimp only
        omega
      | killed d now m hn hid _ hi =>
        rw [if_neg hid] at hinc
        refine .inl ⟨_, rfl, hgen, hadr, ?_, .inr (.inr (.inl ⟨d.incarnation, hn ▸ actOf_dead hx, by omega⟩))⟩
        rw [if_neg hid]
        dsimp only
        omega
      | expired now m s =>
        refine .inl ⟨_, rfl, hgen, hadr, hinc, .inr (.inr (.inr ?_))⟩
        intro a t ha
        cases hx
        cases ha with | merge _ r _ hr => cases hr
      | newer a ok off now m h1 hid h3 h4 h5 h6 =>
        obtain ⟨f1, f2, f3, f4, f5, f6⟩ := adoptAlive_fields a none now { m1 with susp := none }
        rw [if_neg hid] at hinc
        refine .inl ⟨_, rfl, f4.trans hgen, ?_, ?_, .inr (.inl (.inl f1))⟩
        · rw [f3, ← hadr, h5]; rfl
        · rw [f2]; omega
      | reclaimed a ok off now m h1 h2 h3 h4 h5 h6 =>
        exfalso
        refine hno ⟨a, now, (actOf_alive hx).1, h1, (by rw [← hadr]; exact fun e => h5 e.symm), h2, ?_⟩
        rcases hst with ⟨hs1, hs2⟩ | hs | hs | hs
        · refine .inl ?_
          unfold MayReclaim
          rw [← hs1, ← hs2]
          exact h6
        · exfalso
          refine live_not_down hs ?_
          rcases h6 with h | ⟨h, _⟩
          · exact .inr h
          · exact .inl h
        · exact .inr hs
        · exact absurd (actOf_alive hx).1 (hs _ _)
      | reaped pick now m _ =>
        refine .inr ⟨rfl, ?_⟩
        intro a now ha
        rcases reset_no_alive hx with rfl | rfl
        · cases ha with | merge _ r _ hr => cases hr
        · cases ha with | merge _ r _ hr => cases hr
      | metadata md m hid hl =>
        refine .inl ⟨_, rfl, hgen, ?_, ?_, hst⟩
        · have := (hc.inv.local_get (hid ▸ hq)).addr
          rw [← hadr, this]
        · rw [if_pos hid]; exact Nat.le_add_left _ _
      | left now m hid hl =>
        refine .inl ⟨_, rfl, hgen, hadr, ?_, .inr (.inr (.inr ?_))⟩
        · rw [if_pos hid]; exact Nat.le_add_left _ _
        · intro a t ha
          cases hx
          cases ha with | merge _ r _ hr => cases hr
    · rw [hq] at hch
      revert hch
      generalize (act cfg env c x).members.get id = o'
      intro hch
      cases hch with
      | same => exact .inr ⟨rfl, hna⟩
      | new a ok off now => exact absurd (actOf_alive hx).1 (hna _ _)
  rcases key with ⟨m1, h1, h2, h3, _⟩ | ⟨h1, _⟩
  · rw [member_eq, h1] at h'; cases h'
    rcases hc with hc | hc
    · exact hc h2
    · exact hc h3
  · rw [member_eq, h1] at h'; cases h'

/-- Every remote record describes a node the alive filter accepted. -/
theorem accepted_by_filter {e : Ep I A} (h : Reachable cfg env e) {id : I} (hid : id ≠ cfg.localId) {m : Member I A}
    (hm : member e id = some m) : ∃ t, env.aliveOk t m.server = true := by
  have : ∀ m, member e id = some m → ∃ t, env.aliveOk t m.server = true := by
    refine (reachable_induct (P := fun e => Good cfg e.core ∧
      ∀ m, e.core.members.get id = some m → ∃ t, env.aliveOk t m.server = true) h ?_ ?_).2
    · intro now e0 h0
      rw [tryNew_core h0]
      refine ⟨good_init now, ?_⟩
      intro m hm
      have h1 := Table.get_mem hm
      have h3 : (Core.init cfg env now).members = [_] := rfl
      rw [h3, List.mem_singleton] at h1
      have h4 := Table.get_id hm
      rw [h1] at h4
      exact absurd h4.symm hid
    · rintro e op _ ⟨hg, hq⟩
      refine ⟨(step_acts e op).good hg, ?_⟩
      refine step_induct (Q := fun c => ∀ m, c.members.get id = some m → ∃ t, env.aliveOk t m.server = true)
        hg op id hq ?_
      intro c x hx hc hq hch
      revert hch
      generalize (act cfg env c x).members.get id = o'
      generalize ho : c.members.get id = o
      intro hch m' hm'
      cases hch with
      | same => exact hq _ (ho.trans hm')
      | confirm => cases hm'; have := hq _ ho; exact this
      | refuted => cases hm'; have := hq _ ho; exact this
      | suspected => cases hm'; have := hq _ ho; exact this
      | killed => cases hm'; have := hq _ ho; exact this
      | expired => cases hm'; have := hq _ ho; exact this
      | newer a ok off now m h1 h2 h3 h4 =>
        cases hm'
        obtain ⟨tk, htk⟩ := (actOf_alive hx).2
        rw [(adoptAlive_fields a _ now _).2.2.1]
        exact ⟨tk, htk ▸ h4⟩
      | reclaimed a ok off now m h1 h2 h3 h4 =>
        cases hm'
        obtain ⟨tk, htk⟩ := (actOf_alive hx).2
        rw [(adoptAlive_fields a _ now _).2.2.1]
        exact ⟨tk, htk ▸ h4⟩
      | new a ok off now h1 h2 h3 h4 =>
        cases hm'
        obtain ⟨tk, htk⟩ := (actOf_alive hx).2
        rw [(adoptAlive_fields a _ now _).2.2.1]
        exact ⟨tk, htk ▸ h4⟩
      | reaped => cases hm'
      | metadata md m h1 => exact absurd h1 hid
      | left now m h1 => exact absurd h1 hid
  exact this m hm

theorem get_withPlaceholder' {c : Core I A} (h : Inv cfg c) (a : Alive I A) (off now : Nat)
    (hn : c.members.get a.node.id = none) (id : I) :
    (c.withPlaceholder a off now).members.get id =
      if id = a.node.id then some (placeholder a c.nextGen now) else c.members.get id := by
  have hp : (c.withPlaceholder a off now).members.Perm (placeholder a c.nextGen now :: c.members) :=
    Table.insertAt_perm _ _ _
  have hnd : ((placeholder a c.nextGen now :: c.members).map Member.id).Nodup := by
    rw [List.map_cons, List.nodup_cons]
    exact ⟨Table.get_eq_none.1 hn, h.nodup⟩
  rw [Table.get_perm hnd hp, Table.get_cons]
  by_cases e : id = a.node.id
  · rw [if_pos e]; exact if_pos e.symm
  · rw [if_neg e]; exact if_neg (fun h => e h.symm)

/-- An Alive claim from the recorded address, newer than the record. -/
theorem adopt_newer {e : Ep I A} (hg : Good cfg e.core) {m : Member I A} {a : Alive I A}
    (h : member e a.node.id = some m) (hr : e.core.lifecycle = .running) (hid : a.node.id ≠ cfg.localId)
    (haddr : m.server.addr = a.node.addr) (hi : m.incarnation < a.incarnation)
    (hok : env.aliveOk e.tick (nodeOf a .alive) = true) (src : A) (now : Nat) :
    member (e.step cfg env (.packet src (.alive a) now)).1 a.node.id =
      some (adoptAlive a none now { m with susp := none }) := by
  rw [packet_alive hr, hok]
  show (e.core.processAlive cfg env a true (env.tape e.tick 0) now).members.get a.node.id = _
  have hP : ∀ c', (c' = e.core.processAlive cfg env a true (env.tape e.tick 0) now) →
      c'.members.get a.node.id = some (adoptAlive a none now { m with susp := none }) := by
    have : e.core.processAlive cfg env a true (env.tape e.tick 0) now = e.core.adopted env a false m now := by
      unfold Core.processAlive
      rw [if_neg (by simp [hr])]
      simp only [Bool.not_true, Bool.false_eq_true, if_false]
      unfold processAliveDecided admitAlive
      rw [← member_eq, h]
      dsimp only
      rw [if_neg (by simp [haddr])]
      dsimp only
      rw [← member_eq, h]
      dsimp only
      have hi' : ¬ a.incarnation ≤ m.incarnation := by omega
      simp only [hid, decide_false, hi', Bool.not_false, Bool.and_false, Bool.false_and,
                Bool.false_eq_true, if_false, if_true, Bool.true_or]
      unfold Core.adopted adoptEvent
      simp only [Bool.false_eq_true, if_false]
      split
      · rfl
      · split <;> rfl
    rintro c' rfl
    rw [this, get_adopted h, if_pos rfl]
    rfl
  exact hP _ rfl

/-- A claim about an unknown id when there is room. -/
theorem adopt_new {e : Ep I A} (hg : Good cfg e.core) {a : Alive I A}
    (h : member e a.node.id = none) (hr : e.core.lifecycle = .running)
    (hfull : ∀ mx, cfg.maxMembers = some mx → e.core.members.length < mx)
    (hok : env.aliveOk e.tick (nodeOf a .alive) = true) (src : A) (now : Nat) :
    ∃ m, member (e.step cfg env (.packet src (.alive a) now)).1 a.node.id = some m ∧ m.state = .alive ∧
      m.incarnation = a.incarnation ∧ m.server = nodeOf a .alive := by
  have hid : a.node.id ≠ cfg.localId := by
    intro e1
    obtain ⟨m, hm, _⟩ := hg.inv.loc
    rw [← e1, ← member_eq, h] at hm
    cases hm
  have hch := processAlive_change (env := env) hg.inv a true (env.tape e.tick 0) now a.node.id
  rw [packet_alive hr, hok]
  show ∃ m, (e.core.processAlive cfg env a true (env.tape e.tick 0) now).members.get a.node.id = some m ∧ _
  have hne : (e.core.processAlive cfg env a true (env.tape e.tick 0) now).members.get a.node.id ≠ none := by
    have hf : isFull cfg e.core.members.length = false := by
      unfold isFull
      cases hm : cfg.maxMembers with
      | none => rfl
      | some mx => simpa using hfull mx hm
    have hp : (e.core.members.insertAt (placeholder a e.core.nextGen now) (env.tape e.tick 0 % (e.core.members.length + 1))).get
        a.node.id = some (placeholder a e.core.nextGen now) := by
      have := get_withPlaceholder' hg.inv a (env.tape e.tick 0) now h a.node.id
      rw [if_pos rfl] at this
      exact this
    unfold Core.processAlive
    rw [if_neg (by simp [hr])]
    simp only [Bool.not_true, Bool.false_eq_true, if_false]
    unfold processAliveDecided admitAlive
    rw [← member_eq, h]
    dsimp only
    rw [if_neg (by simp [hf])]
    dsimp only
    unfold placeholder at hp
    rw [hp]
    simp only [hid, decide_false, Bool.not_false, Bool.not_true, Bool.and_false, Bool.false_and,
      Bool.false_eq_true, if_false, if_true, Bool.true_or, true_or]
    intro hn
    have hget := Table.get_eq_none.1 hn
    apply hget
    have h2 : ∀ c : Core I A, a.node.id ∈ c.members.map Member.id → ∀ f, (∀ m, m.id = a.node.id → (f m).id = a.node.id) →
        a.node.id ∈ (c.members.update a.node.id f).map Member.id := by
      intro c hc f hf
      rw [Table.ids_update _ _ _ hf]; exact hc
    show a.node.id ∈ (((e.core.members.insertAt _ _).update a.node.id _).update a.node.id _).map Member.id
    rw [Table.ids_update _ _ _ (by intro m hm; exact adoptAlive_id _ _ _ _), Table.ids_update _ _ _ (by intro m hm; exact hm)]
    exact List.mem_map.2 ⟨_, Table.get_mem hp, Table.get_id hp⟩
  rw [← member_eq, h] at hch
  revert hch hne
  generalize (e.core.processAlive cfg env a true (env.tape e.tick 0) now).members.get a.node.id = o'
  intro hch hne
  cases hch with
  | same => exact absurd rfl hne
  | new =>
    obtain ⟨f1, f2, f3, _⟩ := adoptAlive_fields a none now (placeholder a e.core.nextGen now)
    exact ⟨_, rfl, f1, f2, f3⟩


/-- Alive claims about another id do not touch a record. -/
theorem alive_other {e : Ep I A} (hg : Good cfg e.core) {a : Alive I A} {id : I} (hne : a.node.id ≠ id) (src : A)
    (now : Nat) : member (e.step cfg env (.packet src (.alive a) now)).1 id = member e id := by
  by_cases hr : e.core.lifecycle = .running
  · rw [packet_alive hr]
    show (e.core.processAlive cfg env a _ (env.tape e.tick 0) now).members.get id = e.core.members.get id
    have hch := processAlive_change (env := env) hg.inv a (env.aliveOk e.tick (nodeOf a .alive)) (env.tape e.tick 0) now id
    revert hch
    generalize e.core.members.get id = o
    generalize (e.core.processAlive cfg env a (env.aliveOk e.tick (nodeOf a .alive)) (env.tape e.tick 0) now).members.get id = o'
    intro hch
    cases hch with
    | same => rfl
    | refuted x m acc _ _ ha => cases ha; contradiction
    | newer => contradiction
    | reclaimed => contradiction
    | new => contradiction
  · rw [packet_not_running hr]

theorem alive_running {e : Ep I A} (hg : Good cfg e.core) (a : Alive I A) (src : A) (now : Nat)
    (hr : e.core.lifecycle = .running) : (e.step cfg env (.packet src (.alive a) now)).1.core.lifecycle = .running := by
  rw [packet_alive hr]
  exact (processAlive_lifecycle hg.inv _ _ _ _).trans hr

/-- Any number of Alive claims about a known id, from its address. -/
theorem claims_max {id : I} {addr : A} (hid : id ≠ cfg.localId)
    (hok : ∀ t n, n.id = id → env.aliveOk t n = true) (l : List (A × Alive I A × Nat))
    (hl : ∀ d ∈ l, d.2.1.node.id = id → d.2.1.node.addr = addr) :
    ∀ {e : Ep I A} {m : Member I A}, Good cfg e.core → e.core.lifecycle = .running → member e id = some m →
      m.server.addr = addr →
    ∃ m', member (Ep.run cfg env e (deliverAlive l)) id = some m' ∧ m.incarnation ≤ m'.incarnation ∧
      (∀ d ∈ l, d.2.1.node.id = id → d.2.1.incarnation ≤ m'.incarnation) ∧
      (m' = m ∨ ∃ d ∈ l, d.2.1.node.id = id ∧ m.incarnation < d.2.1.incarnation ∧ m'.incarnation = d.2.1.incarnation ∧ m'.state = .alive ∧
        m'.server = nodeOf d.2.1 .alive) := by
  induction l with
  | nil => intro e m _ _ hm _; exact ⟨m, hm, Nat.le_refl _, by simp, .inl rfl⟩
  | cons d l ih =>
    intro e m hg hr hm ha
    have hl' := fun d hd => hl d (List.mem_cons_of_mem _ hd)
    obtain ⟨src, a, now⟩ := d
    show ∃ m', member (Ep.run cfg env (e.step cfg env (.packet src (.alive a) now)).1 (deliverAlive l)) id = some m' ∧ _
    have hg' := (step_acts (cfg := cfg) (env := env) e (.packet src (.alive a) now)).good hg
    have hr' := alive_running (env := env) hg a src now hr
    by_cases hn : a.node.id = id
    · have haa : a.node.addr = addr := hl _ (List.mem_cons_self ..) hn
      by_cases hi : m.incarnation < a.incarnation
      · have hm1 := adopt_newer (env := env) hg (by rw [hn]; exact hm) hr (by rw [hn]; exact hid) (by rw [ha, haa]) hi (hok _ _ hn) src now
        rw [hn] at hm1
        obtain ⟨f1, f2, f3, _⟩ := adoptAlive_fields a none now { m with susp := none }
        obtain ⟨m', h1, h2, h3, h4⟩ := ih hl' hg' hr' hm1 (by rw [f3]; exact haa)
        rw [f2] at h2
        refine ⟨m', h1, by omega, ?_, .inr ?_⟩
        · intro d hd hdn
          rcases List.mem_cons.1 hd with rfl | hd
          · exact h2
          · exact h3 d hd hdn
        · rcases h4 with rfl | ⟨d, hd, h5, h6, h7⟩
          · exact ⟨_, List.mem_cons_self .., hn, hi, f2, f1, f3⟩
          · rw [f2] at h6
            exact ⟨d, List.mem_cons_of_mem _ hd, h5, by omega, h7⟩
      · obtain ⟨t, ht⟩ := stale_alive (cfg := cfg) (env := env) (e := e) (a := a) (by rw [hn]; exact hm) (by rw [ha, haa])
          (by
            rcases Nat.lt_or_ge a.incarnation m.incarnation with h | h
            · exact .inl h
            · exact .inr ⟨by omega, by rw [hn]; exact hid⟩) src now
        have hm1 : member (e.step cfg env (.packet src (.alive a) now)).1 id = some m := by rw [ht]; exact hm
        obtain ⟨m', h1, h2, h3, h4⟩ := ih hl' hg' hr' hm1 ha
        refine ⟨m', h1, h2, ?_, ?_⟩
        · intro d hd hdn
          rcases List.mem_cons.1 hd with rfl | hd
          · dsimp only; omega
          · exact h3 d hd hdn
        · rcases h4 with rfl | ⟨d, hd, h5⟩
          · exact .inl rfl
          · exact .inr ⟨d, List.mem_cons_of_mem _ hd, h5⟩
    · obtain ⟨m', h1, h2, h3, h4⟩ := ih hl' hg' hr' (by rw [alive_other hg hn]; exact hm) ha
      refine ⟨m', h1, h2, ?_, ?_⟩
      · intro d hd hdn
        rcases List.mem_cons.1 hd with rfl | hd
        · exact absurd hdn hn
        · exact h3 d hd hdn
      · rcases h4 with rfl | ⟨d, hd, h5⟩
        · exact .inl rfl
        · exact .inr ⟨d, List.mem_cons_of_mem _ hd, h5⟩

/-- The same for an unknown id, when the table has no cap. -/
theorem claims_max_new {id : I} {addr : A} (hid : id ≠ cfg.localId) (hcap : cfg.maxMembers = none)
    (hok : ∀ t n, n.id = id → env.aliveOk t n = true) (l : List (A × Alive I A × Nat))
    (hl : ∀ d ∈ l, d.2.1.node.id = id → d.2.1.node.addr = addr) (hex : ∃ d ∈ l, d.2.1.node.id = id) :
    ∀ {e : Ep I A}, Good cfg e.core → e.core.lifecycle = .running → member e id = none →
    ∃ m', member (Ep.run cfg env e (deliverAlive l)) id = some m' ∧
      (∀ d ∈ l, d.2.1.node.id = id → d.2.1.incarnation ≤ m'.incarnation) ∧
      (∃ d ∈ l, d.2.1.node.id = id ∧ m'.incarnation = d.2.1.incarnation ∧ m'.state = .alive ∧
        m'.server = nodeOf d.2.1 .alive) := by
  induction l with
  | nil => obtain ⟨d, hd, _⟩ := hex; cases hd
  | cons d l ih =>
    intro e hg hr hm
    have hl' := fun d hd => hl d (List.mem_cons_of_mem _ hd)
    obtain ⟨src, a, now⟩ := d
    show ∃ m', member (Ep.run cfg env (e.step cfg env (.packet src (.alive a) now)).1 (deliverAlive l)) id = some m' ∧ _
    have hg' := (step_acts (cfg := cfg) (env := env) e (.packet src (.alive a) now)).good hg
    have hr' := alive_running (env := env) hg a src now hr
    by_cases hn : a.node.id = id
    · have haa : a.node.addr = addr := hl _ (List.mem_cons_self ..) hn
      obtain ⟨m1, hm1, f1, f2, f3⟩ := adopt_new (env := env) hg (by rw [hn]; exact hm) hr
        (by intro mx h; rw [hcap] at h; cases h) (hok _ _ hn) src now
      rw [hn] at hm1
      obtain ⟨m', h1, h2, h3, h4⟩ := claims_max hid hok l hl' hg' hr' hm1 (by rw [f3]; exact haa)
      rw [f2] at h2
      refine ⟨m', h1, ?_, ?_⟩
      · intro d hd hdn
        rcases List.mem_cons.1 hd with rfl | hd
        · exact h2
        · exact h3 d hd hdn
      · rcases h4 with rfl | ⟨d, hd, h5, _, h7⟩
        · exact ⟨_, List.mem_cons_self .., hn, f2, f1, f3⟩
        · exact ⟨d, List.mem_cons_of_mem _ hd, h5, h7⟩
    · obtain ⟨m', h1, h3, d, hd, h5⟩ := ih hl' (by
          obtain ⟨d, hd, hdn⟩ := hex
          rcases List.mem_cons.1 hd with rfl | hd
          · exact absurd hdn hn
          · exact ⟨d, hd, hdn⟩) hg' hr' (by rw [alive_other hg hn]; exact hm)
      refine ⟨m', h1, ?_, d, List.mem_cons_of_mem _ hd, h5⟩
      intro d hd hdn
      rcases List.mem_cons.1 hd with rfl | hd
      · exact absurd hdn hn
      · exact h3 d hd hdn

theorem adopted_bcast (c : Core I A) (a : Alive I A) (upd : Bool) (m : Member I A) (now : Nat) :
    (c.adopted env a upd m now).bcast = (c.bcast.queueBroadcast (Core.ops env) (a.node.id, .alive a)).1 := by
  unfold Core.adopted
  dsimp only
  split <;> rfl

/-- A claim that changes the record of a remote id is queued for gossip. -/
theorem claim_queued {e : Ep I A} (hg : Good cfg e.core) {id : I} (hid : id ≠ cfg.localId) {msg : Message I A}
    (hm : ClaimAbout id msg) (src : A) (now : Nat)
    (hne : member (e.step cfg env (.packet src msg now)).1 id ≠ member e id) :
    (e.step cfg env (.packet src msg now)).1.core.bcast = (e.core.bcast.queueBroadcast (Core.ops env) (id, msg)).1 := by
  by_cases hr : e.core.lifecycle = .running
  · cases hm with
    | suspect s hs =>
      subst hs
      rw [packet_suspect hr] at hne ⊢
      revert hne
      show (e.core.processSuspect cfg env s now).members.get s.node ≠ e.core.members.get s.node →
        (e.core.processSuspect cfg env s now).bcast = _
      apply processSuspect_cases cfg env e.core s now (fun c' => c'.members.get s.node ≠ e.core.members.get s.node → c'.bcast = _)
      · intro h; exact absurd rfl h
      · intros; rfl
      · intro m _ _ _ _ h; exact absurd h hid
      · intros; rfl
    | dead s hs =>
      subst hs
      rw [packet_dead hr] at hne ⊢
      revert hne
      show (e.core.processDead cfg env s now).members.get s.node ≠ e.core.members.get s.node →
        (e.core.processDead cfg env s now).bcast = _
      apply processDead_cases cfg env e.core s now (fun c' => c'.members.get s.node ≠ e.core.members.get s.node → c'.bcast = _)
      · intro h; exact absurd rfl h
      · intro m _ _ h; exact absurd h hid
      · intro m _ _ _ _ h; exact absurd h hid
      · intros; rfl
    | alive a hs =>
      subst hs
      rw [packet_alive hr] at hne ⊢
      revert hne
      show (e.core.processAlive cfg env a _ _ now).members.get a.node.id ≠ e.core.members.get a.node.id →
        (e.core.processAlive cfg env a _ _ now).bcast = _
      apply processAlive_cases cfg env e.core a _ _ now
        (fun c' => c'.members.get a.node.id ≠ e.core.members.get a.node.id → c'.bcast = _)
      · intro h; exact absurd rfl h
      · intro m _ _ _ _ _ h; exact absurd rfl h
      · intro m _ _ _ _ _ h; exact absurd rfl h
      · intro m _ _ _ h; exact absurd h hid
      · intro m _ _ _ h; exact absurd h hid
      · intros; exact adopted_bcast _ _ _ _ _
      · intros; exact adopted_bcast _ _ _ _ _
      · intros; exact adopted_bcast _ _ _ _ _
      · obtain ⟨m, hm, _⟩ := hg.inv.loc
        rw [hm]; rfl
      · intro m hl hm
        have := (hg.inv.local_get hm).state
        rw [hl] at this
        simpa using this
      · exact hg.inv.nodup
  · rw [packet_not_running hr] at hne
    exact absurd rfl hne

theorem merge_entry {e : Ep I A} (hr : e.core.lifecycle = .running) (r : PushNodeState I A) (src : A) (now : Nat) :
    e.mergeOne cfg env now r = Ep.run cfg env e ((entryMessage cfg.localId r).toList.map (fun m => .packet src m now)) := by
  unfold mergeOne entryMessage
  cases r.state with
  | alive => exact (packet_alive hr src (claimOf r) now).symm
  | left => exact (packet_dead hr src _ now).symm
  | dead => exact (packet_suspect hr src _ now).symm
  | suspect => exact (packet_suspect hr src _ now).symm
  | unknown n => rfl

/-- Only a call to leave changes the lifecycle. -/
theorem step_running {e : Ep I A} (hg : Good cfg e.core) (hr : e.core.lifecycle = .running) (op : Op I A)
    (ho : ∀ now f, op ≠ .leave now f) : (e.step cfg env op).1.core.lifecycle = .running := by
  refine (step_acts e _).inductGood (Q := fun c => c.lifecycle = .running) hg hr ?_
  intro c x hx hc hq
  rcases act_lifecycle (env := env) hc x with h | ⟨now, rfl, _⟩
  · rw [h]; exact hq
  · cases hx; exact absurd rfl (ho now _)

theorem packet_running {e : Ep I A} (hg : Good cfg e.core) (hr : e.core.lifecycle = .running) (src : A) (msg : Message I A)
    (now : Nat) : (e.step cfg env (.packet src msg now)).1.core.lifecycle = .running := by
  refine (step_acts e _).inductGood (Q := fun c => c.lifecycle = .running) hg hr ?_
  intro c x hx hc hq
  rcases act_lifecycle (env := env) hc x with h | ⟨now, rfl, _⟩
  · rw [h]; exact hq
  · cases hx

theorem merge_entries {e : Ep I A} (hg : Good cfg e.core) (hr : e.core.lifecycle = .running)
    (rs : List (PushNodeState I A)) (src : A) (now : Nat) :
    e.mergeState cfg env rs now =
      Ep.run cfg env e ((rs.filterMap (entryMessage cfg.localId)).map (fun m => .packet src m now)) := by
  induction rs generalizing e with
  | nil => rfl
  | cons r rs ih =>
    show (e.mergeOne cfg env now r).mergeState cfg env rs now = _
    have h1 := merge_entry (cfg := cfg) (env := env) hr r src now
    have hg' : Good cfg (e.mergeOne cfg env now r).core := by rw [h1]; exact good_run hg _
    have hr' : (e.mergeOne cfg env now r).core.lifecycle = .running := by
      rw [h1]
      cases entryMessage cfg.localId r with
      | none => exact hr
      | some m => exact packet_running hg hr _ _ _
    rw [ih hg' hr', h1, ← run_append]
    congr 1
    cases h : entryMessage cfg.localId r with
    | none => simp [h]
    | some m => simp [h]

end Verif.Ep
