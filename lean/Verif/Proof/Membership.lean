import Verif.Proof.Reach
import Verif.Proof.Suspicion
import Verif.Proof.BroadcastRun
/-
Proofs about the records of the member table, call by call.
-/
namespace Verif.Ep
open Verif Core Spec
variable {I A : Type} [DecidableEq I] [DecidableEq A]
variable {cfg : Cfg I A} {env : Env I A}

omit [DecidableEq I] [DecidableEq A] in
theorem adoptAlive_fields (a : Alive I A) (gen : Option Nat) (now : Nat) (m : Member I A) :
    (adoptAlive a gen now m).state = .alive ∧ (adoptAlive a gen now m).incarnation = a.incarnation ∧
    (adoptAlive a gen now m).server = nodeOf a .alive ∧ (adoptAlive a gen now m).gen = gen.getD m.gen ∧
    (adoptAlive a gen now m).susp = m.susp ∧
    ((adoptAlive a gen now m).stateChange = now ∨ (adoptAlive a gen now m).stateChange = m.stateChange) := by
  unfold adoptAlive
  dsimp only
  split
  · exact ⟨rfl, rfl, rfl, rfl, rfl, .inl rfl⟩
  · rename_i h
    simp only [ne_eq, Decidable.not_not] at h
    exact ⟨h, rfl, rfl, rfl, rfl, .inr rfl⟩

theorem revival {e : Ep I A} (hg : Good cfg e.core) (op : Op I A) {id : I} {m m' : Member I A}
    (h : member e id = some m) (hd : Down m) (h' : member (e.step cfg env op).1 id = some m') (hl : Live m') :
    ∃ a now, HearsAlive op a now ∧ a.node.id = id ∧ id ≠ cfg.localId ∧
      ((a.node.addr = m.server.addr ∧ m.incarnation < a.incarnation) ∨
       (a.node.addr ≠ m.server.addr ∧ MayReclaim cfg m now)) := by
  apply Classical.byContradiction
  intro hno
  have : (e.step cfg env op).1.core.members.get id = some m ∨
      ((e.step cfg env op).1.core.members.get id = none ∧ ∀ a now, ¬ HearsAlive op a now) := by
    refine step_induct (Q := fun c => c.members.get id = some m ∨
      (c.members.get id = none ∧ ∀ a now, ¬ HearsAlive op a now)) hg op id (.inl h) ?_
    intro c x hx hc hq hch
    rcases hq with hq | ⟨hq, hna⟩
    · rw [hq] at hch
      revert hch
      generalize (act cfg env c x).members.get id = o'
      intro hch
      cases hch with
      | same => exact .inl rfl
      | confirm s now m susp susp' d _ _ _ _ hs _ =>
        have := (hc.inv.mem _ _ hq).susp.1 (by rw [hs]; rfl)
        rcases hd with hd | hd <;> rw [hd] at this <;> cases this
      | refuted x m acc hid hlr =>
        have := (hc.inv.local_get (hid ▸ hq)).state
        rw [hlr] at this
        rcases hd with hd | hd <;> rw [hd] at this <;> cases this
      | suspected s now m mn mx _ _ _ _ hs =>
        rcases hd with hd | hd <;> rw [hd] at hs <;> cases hs
      | killed d now m _ _ _ _ h1 h2 =>
        rcases hd with hd | hd
        · exact absurd hd h1
        · exact absurd hd h2
      | expired now m s _ _ hs =>
        have := (hc.inv.mem _ _ hq).susp.1 (by rw [hs]; rfl)
        rcases hd with hd | hd <;> rw [hd] at this <;> cases this
      | newer a ok off now m h1 h2 h3 h4 h5 h6 =>
        exact absurd ⟨a, now, (actOf_alive hx).1, h1, h2, .inl ⟨h5.symm, h6⟩⟩ hno
      | reclaimed a ok off now m h1 h2 h3 h4 h5 h6 =>
        exact absurd ⟨a, now, (actOf_alive hx).1, h1, h2, .inr ⟨fun e => h5 e.symm, h6⟩⟩ hno
      | reaped pick now m _ =>
        refine .inr ⟨rfl, ?_⟩
        intro a now ha
        rcases reset_no_alive hx with rfl | rfl
        · cases ha with | merge _ r _ hr => cases hr
        · cases ha with | merge _ r _ hr => cases hr
      | metadata md m hid hlr =>
        have := (hc.inv.local_get (hid ▸ hq)).state
        rw [hlr] at this
        rcases hd with hd | hd <;> rw [hd] at this <;> cases this
      | left now m hid hlr =>
        have := (hc.inv.local_get (hid ▸ hq)).state
        rw [hlr] at this
        rcases hd with hd | hd <;> rw [hd] at this <;> cases this
    · rw [hq] at hch
      revert hch
      generalize (act cfg env c x).members.get id = o'
      intro hch
      cases hch with
      | same => exact .inr ⟨rfl, hna⟩
      | new a ok off now => exact absurd (actOf_alive hx).1 (hna _ _)
  rcases this with h1 | ⟨h1, _⟩
  · rw [member_eq, h1] at h'; cases h'; exact live_not_down hl hd
  · rw [member_eq, h1] at h'; cases h'

/-- A record that disappears was reaped. -/
theorem disappearance {e : Ep I A} (hg : Good cfg e.core) (op : Op I A) {id : I} {m : Member I A}
    (h : member e id = some m) (h' : member (e.step cfg env op).1 id = none) :
    ∃ now, (op = .timeout now ∨ op = .resetNodes now) ∧ id ≠ cfg.localId ∧ Down m ∧
      cfg.gossipToTheDead < now - m.stateChange := by
  apply Classical.byContradiction
  intro hno
  have : ∃ m', (e.step cfg env op).1.core.members.get id = some m' ∧
      ((m'.state = m.state ∧ m'.stateChange = m.stateChange) ∨ m'.stateChange ∈ op.times) := by
    refine step_induct (Q := fun c => ∃ m', c.members.get id = some m' ∧
      ((m'.state = m.state ∧ m'.stateChange = m.stateChange) ∨ m'.stateChange ∈ op.times))
      hg op id ⟨m, h, .inl ⟨rfl, rfl⟩⟩ ?_
    rintro c x hx hc ⟨m1, hq, hm1⟩ hch
    rw [hq] at hch
    revert hch
    generalize (act cfg env c x).members.get id = o'
    intro hch
    cases hch with
    | same => exact ⟨_, rfl, hm1⟩
    | confirm => exact ⟨_, rfl, hm1⟩
    | refuted => exact ⟨_, rfl, hm1⟩
    | suspected => exact ⟨_, rfl, .inr (actOf_time hx rfl)⟩
    | killed => exact ⟨_, rfl, .inr (actOf_time hx rfl)⟩
    | expired => exact ⟨_, rfl, .inr (actOf_time hx rfl)⟩
    | newer a ok off now =>
      refine ⟨_, rfl, ?_⟩
      have hf := adoptAlive_fields a none now { m1 with susp := none }
      have ht := actOf_time hx rfl
      unfold adoptAlive
      dsimp only
      split
      · exact .inr ht
      · exact hm1
    | reclaimed a ok off now m1 _ _ _ _ _ hrec =>
      refine ⟨_, rfl, ?_⟩
      have ht := actOf_time hx rfl
      have : m1.state ≠ .alive := by
        rcases hrec with h | ⟨h, _⟩ <;> rw [h] <;> simp
      unfold adoptAlive
      dsimp only
      rw [if_pos this]
      exact .inr ht
    | reaped pick now m1 hr =>
      exfalso
      simp only [reapable, Bool.and_eq_true, decide_eq_true_eq] at hr
      obtain ⟨⟨hid, hst⟩, hlt⟩ := hr
      rcases hm1 with ⟨h1, h2⟩ | h1
      · refine hno ⟨now, reset_no_alive hx, ?_, ?_, ?_⟩
        · rw [← Table.get_id hq]; exact hid
        · unfold Down; rw [← h1]; exact hst
        · rw [← h2]; exact hlt
      · have : m1.stateChange = now := by
          rcases reset_no_alive hx with rfl | rfl <;>
            simpa [Op.times, Op.time?, Op.probeTime] using h1
        omega
    | metadata => exact ⟨_, rfl, hm1⟩
    | left => exact ⟨_, rfl, .inr (actOf_time hx rfl)⟩
  obtain ⟨m', h1, _⟩ := this
  rw [member_eq, h1] at h'; cases h'

/-- What one action can do to a remote record within its generation, and to the generation counter. -/
theorem act_nextGen {c : Core I A} (h : Good cfg c) (x : Act I A) : c.nextGen ≤ (act cfg env c x).nextGen := by
  have hrefute : ∀ (c : Core I A) (acc : Nat), (c.refute cfg env acc).nextGen = c.nextGen := by
    intro c acc
    unfold Core.refute
    split
    · rfl
    · dsimp only [bump, nextIncarnation, skipIncarnationPast]
      split <;> split <;> first | rfl | (split <;> rfl)
  have hdead : ∀ (c : Core I A) (d : BadState I) (now : Nat), (c.processDead cfg env d now).nextGen = c.nextGen := by
    intro c d now
    apply processDead_cases cfg env c d now (fun c' => c'.nextGen = c.nextGen) rfl
    · intros; exact hrefute _ _
    · intros; rfl
    · intros; rfl
  have hadopt : ∀ (c : Core I A) (a : Alive I A) (upd : Bool) (m : Member I A) (now : Nat),
      c.nextGen ≤ (c.adopted env a upd m now).nextGen := by
    intro c a upd m now
    have : (c.adopted env a upd m now).nextGen = if upd then c.nextGen + 1 else c.nextGen := by
      unfold adopted; dsimp only; split <;> rfl
    rw [this]; split <;> omega
  cases x with
  | alive a ok off now =>
    simp only [act]
    apply processAlive_cases cfg env c a ok off now (fun c' => c.nextGen ≤ c'.nextGen) (Nat.le_refl _)
    · intros; exact Nat.le_refl _
    · intros; exact Nat.le_refl _
    · intros; exact Nat.le_refl _
    · intro m _ _ _ _ _
      show c.nextGen ≤ ((c.clearSuspicion a.node.id).refute cfg env a.incarnation).nextGen
      exact Nat.le_of_eq (hrefute (c.clearSuspicion a.node.id) a.incarnation).symm
    · intros; exact hadopt _ _ _ _ _
    · intros; exact hadopt _ _ _ _ _
    · intro _ _ _ _ _
      have := hadopt (c.withPlaceholder a off now) a false (placeholder a c.nextGen now) now
      have h2 : (c.withPlaceholder a off now).nextGen = c.nextGen + 1 := rfl
      omega
    · obtain ⟨m, hm, _⟩ := h.inv.loc
      rw [hm]; rfl
    · intro m hl hm
      have := (h.inv.local_get hm).state
      rw [hl] at this
      simpa using this
    · exact h.inv.nodup
  | suspect s now =>
    simp only [act]
    apply processSuspect_cases cfg env c s now (fun c' => c.nextGen ≤ c'.nextGen) (Nat.le_refl _)
    · intros; exact Nat.le_refl _
    · intros; exact Nat.le_of_eq (hrefute _ _).symm
    · intros; exact Nat.le_refl _
  | dead d now => exact Nat.le_of_eq (hdead _ _ _).symm
  | expire now =>
    simp only [act]
    split
    · unfold fireExpiredSuspicions
      generalize c.expiredIds now = ids
      have : (ids.foldl (expireOne cfg env now) c).nextGen = c.nextGen := by
        clear h
        rename_i h
        clear h
        induction ids generalizing c with
        | nil => rfl
        | cons id ids ih => rw [List.foldl_cons, ih]; exact hdead _ _ _
      omega
    · exact Nat.le_refl _
  | reset pick now =>
    simp only [act]
    unfold Core.resetNodes
    dsimp only
    generalize (c.members.filter (fun m => reapable cfg m now)).map Member.id = ids
    have h0 : (if ids.isEmpty then c else c.bump).nextGen = c.nextGen := by split <;> rfl
    rw [← h0]
    generalize (if ids.isEmpty then c else c.bump) = c1
    have : (ids.foldl (fun c id => { c with suspIdx := c.suspIdx.set id none, members := c.members.remove id }) c1).nextGen
        = c1.nextGen := by
      clear h0
      induction ids generalizing c1 with
      | nil => rfl
      | cons id ids ih => rw [List.foldl_cons, ih]
    exact Nat.le_of_eq this.symm
  | updateMeta md => simp only [act]; split <;> exact Nat.le_refl _
  | push ev => simp only [act]; split <;> exact Nat.le_refl _
  | leave now =>
    simp only [act]
    split
    · unfold Core.beginLeave
      dsimp only
      exact Nat.le_of_eq (hdead { c with
        lifecycle := .leaving
        events := c.events.filter (fun e => !e.isDial) } _ _).symm
    · exact Nat.le_refl _
  | _ => exact Nat.le_refl _

/-- Within one generation of a remote record the incarnation does not decrease and the address stays. -/
theorem generation_step {e : Ep I A} (hg : Good cfg e.core) (op : Op I A) {id : I} (hid : id ≠ cfg.localId)
    (g inc : Nat) (addr : A)
    (h : g < e.core.nextGen ∧ ∀ m, e.core.members.get id = some m → m.gen = g →
      inc ≤ m.incarnation ∧ m.server.addr = addr) :
    g < (e.step cfg env op).1.core.nextGen ∧
      ∀ m, (e.step cfg env op).1.core.members.get id = some m → m.gen = g →
        inc ≤ m.incarnation ∧ m.server.addr = addr := by
  refine step_induct (Q := fun c => g < c.nextGen ∧ ∀ m, c.members.get id = some m → m.gen = g →
      inc ≤ m.incarnation ∧ m.server.addr = addr) hg op id h ?_
  rintro c x hx hc ⟨hn, hq⟩ hch
  refine ⟨Nat.lt_of_lt_of_le hn (act_nextGen hc x), ?_⟩
  revert hch
  generalize (act cfg env c x).members.get id = o'
  generalize ho : c.members.get id = o
  intro hch m' hm' hgen
  cases hch with
  | same => exact hq _ (by rw [ho]; exact hm') hgen
  | confirm => cases hm'; have := hq _ ho hgen; exact this
  | refuted x m acc h1 => exact absurd h1 hid
  | suspected s now m mn mx _ _ _ hle =>
    cases hm'
    have := hq _ ho hgen
    exact ⟨Nat.le_trans this.1 hle, this.2⟩
  | killed d now m _ _ _ hle =>
    cases hm'
    have := hq _ ho hgen
    exact ⟨Nat.le_trans this.1 hle, this.2⟩
  | expired => cases hm'; have := hq _ ho hgen; exact this
  | newer a ok off now m _ _ _ _ h5 h6 =>
    cases hm'
    obtain ⟨h1, h2, h3, h4, _⟩ := adoptAlive_fields a none now { m with susp := none }
    rw [h4] at hgen
    have := hq _ ho hgen
    refine ⟨by rw [h2]; omega, ?_⟩
    rw [h3]
    exact h5.symm.trans this.2
  | reclaimed a ok off now m =>
    cases hm'
    obtain ⟨h1, h2, h3, h4, _⟩ := adoptAlive_fields a (some c.nextGen) now { m with susp := none }
    rw [h4] at hgen
    simp only [Option.getD_some] at hgen
    omega
  | new a ok off now =>
    cases hm'
    obtain ⟨h1, h2, h3, h4, _⟩ := adoptAlive_fields a none now (placeholder a c.nextGen now)
    rw [h4] at hgen
    simp only [Option.getD_none, placeholder] at hgen
    omega
  | reaped => cases hm'
  | metadata md m h1 => exact absurd h1 hid
  | left now m h1 => exact absurd h1 hid

theorem generation_run {e : Ep I A} (hg : Good cfg e.core) (ops : List (Op I A)) {id : I} (hid : id ≠ cfg.localId)
    (g inc : Nat) (addr : A)
    (h : g < e.core.nextGen ∧ ∀ m, e.core.members.get id = some m → m.gen = g →
      inc ≤ m.incarnation ∧ m.server.addr = addr) :
    ∀ m, (Ep.run cfg env e ops).core.members.get id = some m → m.gen = g →
        inc ≤ m.incarnation ∧ m.server.addr = addr := by
  induction ops generalizing e with
  | nil => exact h.2
  | cons op ops ih => exact ih ((step_acts e op).good hg) (generation_step hg op hid g inc addr h)

/-- A live remote record goes down only through a Dead claim or an expired suspicion. -/
theorem going_down {e : Ep I A} (hg : Good cfg e.core) (op : Op I A) {id : I} {m m' : Member I A}
    (hid : id ≠ cfg.localId) (h : member e id = some m) (hl : Live m)
    (h' : member (e.step cfg env op).1 id = some m') (hd : Down m') :
    (∃ inc, HearsDead id op inc ∧ m.incarnation ≤ inc) ∨
      (∃ now s, op = .timeout now ∧ m.susp = some s ∧ s.deadline ≤ now ∧
        m' = { m with susp := none, state := .dead, stateChange := now }) := by
  by_cases hto : ∃ now, op = .timeout now
  · obtain ⟨now, rfl⟩ := hto
    right
    by_cases hrun : e.core.lifecycle = .running
    · have hsp := timeout_split (cfg := cfg) (env := env) e now hrun
      have hgood : Good cfg (e.core.fireExpiredSuspicions cfg env now) := by
        have := Good.act (env := env) hg (.expire now)
        simpa only [act, hrun, if_true] using this
      have hch := act_change (env := env) hg (.expire now) id
      simp only [act, hrun, if_true] at hch
      rw [← member_eq, h] at hch
      revert hch
      generalize hcg : (e.core.fireExpiredSuspicions cfg env now).members.get id = o'
      intro hch
      -- nothing after the expiry takes a live record down or touches a dead one
      have key : (∃ m1, (e.step cfg env (.timeout now)).1.core.members.get id = some m1 ∧ Live m1 ∧
            ∃ m0, o' = some m0 ∧ Live m0) ∨
          ((∃ m0, o' = some m0 ∧ Down m0) ∧ ((e.step cfg env (.timeout now)).1.core.members.get id = o' ∨
            (e.step cfg env (.timeout now)).1.core.members.get id = none)) := by
        have start : (∃ m1, o' = some m1 ∧ Live m1) ∨ (∃ m0, o' = some m0 ∧ Down m0) := by
          cases hch with
          | same => exact .inl ⟨_, rfl, hl⟩
          | expired => exact .inr ⟨_, rfl, .inl rfl⟩
          | refuted x m acc h1 => exact absurd h1 hid
        rcases start with ⟨m0, h0, hl0⟩ | ⟨m0, h0, hd0⟩
        · left
          have := hsp.inductGood (Q := fun c => ∃ m1, c.members.get id = some m1 ∧ Live m1) hgood
            ⟨m0, hcg.trans h0, hl0⟩ ?_
          · obtain ⟨m1, h1, h2⟩ := this
            exact ⟨m1, h1, h2, m0, h0, hl0⟩
          · rintro c x ⟨hx, hne⟩ hc ⟨m1, hq, hm1⟩
            have hch2 := act_change (env := env) hc x id
            rw [hq] at hch2
            revert hch2
            generalize (act cfg env c x).members.get id = o2
            intro hch2
            cases hch2 with
            | same => exact ⟨_, rfl, hm1⟩
            | confirm => exact ⟨_, rfl, hm1⟩
            | refuted => exact ⟨_, rfl, hm1⟩
            | suspected => exact ⟨_, rfl, .inr rfl⟩
            | killed =>
              cases hx with
              | remoteLeft r hn hr => cases hr
            | expired now => exact absurd rfl (hne now)
            | newer a ok off now m => exact ⟨_, rfl, .inl (adoptAlive_fields a none now _).1⟩
            | reclaimed a ok off now m => exact ⟨_, rfl, .inl (adoptAlive_fields a _ now _).1⟩
            | reaped pick now m hr =>
              simp only [reapable, Bool.and_eq_true, decide_eq_true_eq] at hr
              exact absurd hr.1.2 (live_not_down hm1)
            | metadata => exact ⟨_, rfl, hm1⟩
            | left now m h1 => exact absurd h1 hid
        · right
          refine ⟨⟨m0, h0, hd0⟩, ?_⟩
          rw [h0]
          refine hsp.inductGood (Q := fun c => c.members.get id = some m0 ∨ c.members.get id = none) hgood
            (.inl (hcg.trans h0)) ?_
          rintro c x ⟨hx, hne⟩ hc hq
          have hch2 := act_change (env := env) hc x id
          rcases hq with hq | hq
          · rw [hq] at hch2
            revert hch2
            generalize (act cfg env c x).members.get id = o2
            intro hch2
            have hns : m0.state ≠ .alive ∧ m0.state ≠ .suspect := by
              rcases hd0 with h | h <;> rw [h] <;> simp
            cases hch2 with
            | same => exact .inl rfl
            | confirm s now m susp susp' d _ _ _ _ hs _ =>
              exact absurd ((hc.inv.mem _ _ hq).susp.1 (by rw [hs]; rfl)) hns.2
            | refuted x m acc h1 => exact absurd h1 hid
            | suspected s now m mn mx _ _ _ _ hs => exact absurd hs hns.1
            | killed d now m _ _ _ _ h1 h2 =>
              rcases hd0 with h | h
              · exact absurd h h1
              · exact absurd h h2
            | expired now => exact absurd rfl (hne now)
            | newer a ok off now m =>
              cases (actOf_alive hx).1 with | merge _ r _ hr => cases hr
            | reclaimed a ok off now m =>
              cases (actOf_alive hx).1 with | merge _ r _ hr => cases hr
            | reaped => exact .inr rfl
            | metadata md m h1 => exact absurd h1 hid
            | left now m h1 => exact absurd h1 hid
          · rw [hq] at hch2
            revert hch2
            generalize (act cfg env c x).members.get id = o2
            intro hch2
            cases hch2 with
            | same => exact .inr rfl
            | new a ok off now =>
              cases (actOf_alive hx).1 with | merge _ r _ hr => cases hr
      rcases key with ⟨m1, h1, h2, _⟩ | ⟨⟨m0, h0, hd0⟩, h2⟩
      · rw [member_eq, h1] at h'; cases h'
        exact absurd hd (live_not_down h2)
      · rcases h2 with h2 | h2
        · rw [member_eq, h2, h0] at h'
          cases h'
          cases hch with
          | same => cases h0; exact absurd hd0 (live_not_down hl)
          | expired now m s _ _ hs hdl => cases h0; exact ⟨now, s, rfl, hs, hdl, rfl⟩
          | refuted x m acc h1 => exact absurd h1 hid
        · rw [member_eq, h2] at h'; cases h'
    · have : (e.step cfg env (.timeout now)).1 = e := by
        show e.handleTimeout cfg env now = e
        unfold handleTimeout
        rw [if_pos hrun]
      rw [this, h] at h'
      cases h'
      exact absurd hd (live_not_down hl)
  · left
    apply Classical.byContradiction
    intro hno
    have : ∃ m1, (e.step cfg env op).1.core.members.get id = some m1 ∧ Live m1 ∧ m.incarnation ≤ m1.incarnation := by
      refine step_induct (Q := fun c => ∃ m1, c.members.get id = some m1 ∧ Live m1 ∧ m.incarnation ≤ m1.incarnation)
        hg op id ⟨m, h, hl, Nat.le_refl _⟩ ?_
      rintro c x hx hc ⟨m1, hq, hm1, hinc⟩ hch
      rw [hq] at hch
      revert hch
      generalize (act cfg env c x).members.get id = o'
      intro hch
      cases hch with
      | same => exact ⟨_, rfl, hm1, hinc⟩
      | confirm => exact ⟨_, rfl, hm1, hinc⟩
      | refuted x m acc h1 => exact absurd h1 hid
      | suspected s now m mn mx _ _ _ hle => exact ⟨_, rfl, .inr rfl, Nat.le_trans hinc hle⟩
      | killed d now m h1 _ _ hle =>
        exact absurd ⟨d.incarnation, h1 ▸ actOf_dead hx, Nat.le_trans hinc hle⟩ hno
      | expired now =>
        cases hx
        exact absurd ⟨_, rfl⟩ hto
      | newer a ok off now m _ _ _ _ h5 h6 =>
        obtain ⟨h1, h2, _⟩ := adoptAlive_fields a none now { m1 with susp := none }
        exact ⟨_, rfl, .inl h1, by rw [h2]; omega⟩
      | reclaimed a ok off now m _ _ _ _ _ hrec =>
        exfalso
        refine live_not_down hm1 ?_
        rcases hrec with h | ⟨h, _⟩
        · exact .inr h
        · exact .inl h
      | reaped pick now m hr =>
        simp only [reapable, Bool.and_eq_true, decide_eq_true_eq] at hr
        exact absurd hr.1.2 (live_not_down hm1)
      | metadata md m h1 => exact absurd h1 hid
      | left now m h1 => exact absurd h1 hid
    obtain ⟨m1, h1, h2, _⟩ := this
    rw [member_eq, h1] at h'; cases h'
    exact absurd hd (live_not_down h2)

/-! ### Suspicion timers -/

/-- What is known about the suspicion timers of a node, `F` holding of all the times still to come. -/
def TimersOk (cfg : Cfg I A) (env : Env I A) (F : Nat → Prop) (c : Core I A) : Prop :=
  ∀ id m s, c.members.get id = some m → m.susp = some s →
    (∃ sender k n mx, 1 ≤ n ∧ env.suspMinMs n * MS ≤ mx ∧
      Suspicion.Ok env.accel sender k (env.suspMinMs n * MS) mx m.stateChange s) ∧
    ∀ t, F t → m.stateChange ≤ t

theorem suspicionTimeouts_le (hm : 1 ≤ cfg.suspicionMaxTimeoutMult) {c : Core I A} {mn mx : Nat}
    (h : c.suspicionTimeouts cfg env = (mn, mx)) :
    mn = env.suspMinMs (Nat.max c.members.length 1) * MS ∧ mn ≤ mx := by
  unfold suspicionTimeouts at h
  dsimp only at h
  injection h with h1 h2
  subst h1
  refine ⟨rfl, ?_⟩
  split at h2
  · subst h2
    exact Nat.le_mul_of_pos_right _ hm
  · omega

/-- The suspicions of one call carry one time. -/
theorem suspect_time_unique {op : Op I A} {s s' : BadState I} {t t' : Nat}
    (h : ActOf cfg env op (.suspect s t)) (h' : ActOf cfg env op (.suspect s' t')) : t = t' := by
  have hx : ∀ op : Op I A, ∀ r ∈ op.remote, op.probeTime = none := by
    intro op r hr
    cases op with
    | streamEvent ev now =>
      cases ev with
      | payload p => cases p <;> first | rfl | (simp [Op.remote] at hr)
      | _ => simp [Op.remote] at hr
    | mergeState => rfl
    | _ => simp [Op.remote] at hr
  cases h with
  | suspect src =>
    cases h' with
    | suspect => rfl
    | remoteBad r hn hr => cases hr
    | probeFailed _ hn => cases hn
  | remoteBad r hn hr =>
    cases h' with
    | suspect => cases hr
    | remoteBad r' hn' => rw [hn] at hn'; cases hn'; rfl
    | probeFailed _ hn' => rw [hx op r hr] at hn'; cases hn'
  | probeFailed _ hn =>
    cases h' with
    | suspect => cases hn
    | remoteBad r hn' hr => rw [hx op r hr] at hn; cases hn
    | probeFailed _ hn' => rw [hn] at hn'; cases hn'; rfl

/-- The timers after one call. -/
theorem timersOk_step (hm : 1 ≤ cfg.suspicionMaxTimeoutMult) {e : Ep I A} (hg : Good cfg e.core) (op : Op I A)
    {F F' : Nat → Prop} (hF : ∀ t ∈ op.times, F t) (hF' : ∀ t, F' t → F t)
    (hlt : ∀ t ∈ op.times, ∀ t', F' t' → t ≤ t')
    (h : TimersOk cfg env F e.core) : TimersOk cfg env F' (e.step cfg env op).1.core := by
  have key : ∀ id m s, (e.step cfg env op).1.core.members.get id = some m → m.susp = some s →
      (∃ sender k n mx, 1 ≤ n ∧ env.suspMinMs n * MS ≤ mx ∧
        Suspicion.Ok env.accel sender k (env.suspMinMs n * MS) mx m.stateChange s) ∧
      ((∃ b, ActOf cfg env op (.suspect b m.stateChange)) ∨ ∀ t, F t → m.stateChange ≤ t) := by
    intro id
    refine step_induct (Q := fun c => ∀ m s, c.members.get id = some m → m.susp = some s →
      (∃ sender k n mx, 1 ≤ n ∧ env.suspMinMs n * MS ≤ mx ∧
        Suspicion.Ok env.accel sender k (env.suspMinMs n * MS) mx m.stateChange s) ∧
      ((∃ b, ActOf cfg env op (.suspect b m.stateChange)) ∨ ∀ t, F t → m.stateChange ≤ t)) hg op id
      (fun m s h1 h2 => ⟨(h id m s h1 h2).1, .inr (h id m s h1 h2).2⟩) ?_
    intro c x hx hc hq hch
    revert hch
    generalize (act cfg env c x).members.get id = o'
    generalize ho : c.members.get id = o
    intro hch m' s' hm' hs'
    cases hch with
    | same => exact hq _ _ (ho.trans hm') hs'
    | confirm b now m susp susp' d _ _ _ _ hs hcf =>
      cases hm'
      dsimp only at hs' ⊢
      cases hs'
      obtain ⟨⟨sender, k, n, mx, h1, h2, h3⟩, h4⟩ := hq _ _ ho hs
      have hle : m.stateChange ≤ now := by
        rcases h4 with ⟨b', hb'⟩ | h4
        · rw [suspect_time_unique hb' hx]
        · exact h4 _ (hF _ (actOf_time hx rfl))
      have := h3.confirm b.src hle
      rw [hcf] at this
      exact ⟨⟨sender, k, n, mx, h1, h2, this⟩, h4⟩
    | refuted x m acc h1 hl =>
      have := hc.inv.local_susp (m := m) (h1 ▸ ho)
      cases hm'
      dsimp only at hs'
      rw [this] at hs'; cases hs'
    | suspected b now m mn mx _ _ _ _ _ _ hto =>
      cases hm'
      dsimp only at hs' ⊢
      cases hs'
      obtain ⟨h1, h2⟩ := suspicionTimeouts_le hm hto
      subst h1
      exact ⟨⟨b.src, _, Nat.max c.members.length 1, mx, Nat.le_max_right _ _, h2, Suspicion.ok_new _ _ _ _ _ _⟩,
        .inl ⟨b, hx⟩⟩
    | killed => cases hm'; cases hs'
    | expired => cases hm'; cases hs'
    | newer a ok off now m =>
      cases hm'
      rw [(adoptAlive_fields a none now { m with susp := none }).2.2.2.2.1] at hs'
      cases hs'
    | reclaimed a ok off now m =>
      cases hm'
      rw [(adoptAlive_fields a _ now { m with susp := none }).2.2.2.2.1] at hs'
      cases hs'
    | new a ok off now =>
      cases hm'
      rw [(adoptAlive_fields a _ now _).2.2.2.2.1] at hs'
      cases hs'
    | reaped => cases hm'
    | metadata md m h1 =>
      have := hc.inv.local_susp (m := m) (h1 ▸ ho)
      cases hm'
      dsimp only at hs'
      rw [this] at hs'; cases hs'
    | left => cases hm'; cases hs'
  intro id m s h1 h2
  obtain ⟨h3, h4⟩ := key id m s h1 h2
  refine ⟨h3, ?_⟩
  intro t ht
  rcases h4 with ⟨b, hb⟩ | h4
  · exact hlt _ (actOf_time hb rfl) t ht
  · exact h4 t (hF' t ht)

/-- The timers after a history. -/
theorem timersOk_run (hm : 1 ≤ cfg.suspicionMaxTimeoutMult) (ops : List (Op I A)) (F : Nat → Prop)
    {e : Ep I A} (hg : Good cfg e.core)
    (hp : ops.Pairwise (fun a b => ∀ t ∈ a.times, ∀ t' ∈ b.times, t ≤ t'))
    (hF : ∀ op ∈ ops, ∀ t ∈ op.times, ∀ t', F t' → t ≤ t')
    (h : TimersOk cfg env (fun t => F t ∨ ∃ op ∈ ops, t ∈ op.times) e.core) :
    TimersOk cfg env F (Ep.run cfg env e ops).core := by
  induction ops generalizing e with
  | nil =>
    intro id m s h1 h2
    obtain ⟨h3, h4⟩ := h id m s h1 h2
    exact ⟨h3, fun t ht => h4 t (.inl ht)⟩
  | cons op ops ih =>
    rw [run_cons]
    rw [List.pairwise_cons] at hp
    refine ih ((step_acts e op).good hg) hp.2 (fun o ho => hF o (List.mem_cons_of_mem _ ho)) ?_
    refine timersOk_step hm hg op (F := fun t => F t ∨ ∃ o ∈ op :: ops, t ∈ o.times) ?_ ?_ ?_ h
    · exact fun t ht => .inr ⟨op, by simp, ht⟩
    · rintro t (ht | ⟨o, ho, ht⟩)
      · exact .inl ht
      · exact .inr ⟨o, List.mem_cons_of_mem _ ho, ht⟩
    · rintro t ht t' (ht' | ⟨o, ho, ht'⟩)
      · exact hF op (by simp) t ht t' ht'
      · exact hp.1 o ho t ht t' ht'

theorem timersOk_init (F : Nat → Prop) (now : Nat) : TimersOk cfg env F (Core.init cfg env now) := by
  intro id m s h1 h2
  have : m ∈ (Core.init cfg env now).members := Table.get_mem h1
  have h3 : (Core.init cfg env now).members = [_] := rfl
  rw [h3, List.mem_singleton] at this
  subst this
  cases h2

/-- A failure declared by the node itself comes at least the minimum suspicion time after the suspicion
began. -/
theorem own_failure {t0 : Nat} {e0 : Ep I A} (h0 : tryNew cfg env t0 = .ok e0)
    (hm : 1 ≤ cfg.suspicionMaxTimeoutMult) (ops : List (Op I A)) (op : Op I A)
    (hch : Chronological t0 (ops ++ [op])) {id : I} {m m' : Member I A} (hid : id ≠ cfg.localId)
    (h : member (Ep.run cfg env e0 ops) id = some m) (hl : Live m)
    (h' : member (Ep.run cfg env e0 (ops ++ [op])) id = some m') (hd : Down m') :
    (∃ inc, HearsDead id op inc ∧ m.incarnation ≤ inc) ∨
      (∃ now n, op = .timeout now ∧ m.state = .suspect ∧ 1 ≤ n ∧
        m.stateChange + env.suspMinMs n * MS ≤ now ∧ m'.state = .dead ∧ m'.incarnation = m.incarnation ∧
        m'.stateChange = now) := by
  have hg := reachable_good (reachable_run (reachable_new h0) ops)
  rw [run_snoc] at h'
  rcases going_down hg op hid h hl h' hd with h1 | ⟨now, s, rfl, hs, hdl, rfl⟩
  · exact .inl h1
  · right
    have hp := List.pairwise_append.1 hch.2
    have hF := timersOk_run (cfg := cfg) (env := env) hm ops (fun t => t = now) (e := e0)
      (reachable_good (reachable_new h0)) hp.1
      (fun o ho t ht t' ht' => by subst ht'; exact hp.2.2 o ho (.timeout t') (by simp) t ht t' (by simp [Op.times, Op.time?]))
      (by rw [tryNew_core h0]; exact timersOk_init _ _)
    obtain ⟨⟨sender, k, n, mx, h1, h2, h3⟩, h4⟩ := hF id m s h hs
    have hst := (hg.inv.mem id m h).susp.1 (by rw [hs]; rfl)
    refine ⟨now, n, rfl, hst, h1, ?_, rfl, rfl, rfl⟩
    have hT := Suspicion.T_lower (acc := env.accel) (k := k) (n := s.n) (Nat.dvd_mul_left MS (env.suspMinMs n)) h2
    have := h3.hdl
    omega

/-- Where a suspicion comes from: either the record was suspect before the call, since the same time and at
the same incarnation, or the call put it into suspicion. -/
theorem suspect_origin {e : Ep I A} (hg : Good cfg e.core) (op : Op I A) {id : I} {m' : Member I A}
    (h' : member (e.step cfg env op).1 id = some m') (hs : m'.state = .suspect) :
    (∃ m, member e id = some m ∧ m.state = .suspect ∧ m.stateChange = m'.stateChange ∧
      m.incarnation = m'.incarnation ∧ m.server = m'.server ∧ m.gen = m'.gen) ∨
    m'.stateChange ∈ op.times := by
  have : ∀ m', (e.step cfg env op).1.core.members.get id = some m' → m'.state = .suspect →
      (∃ m, member e id = some m ∧ m.state = .suspect ∧ m.stateChange = m'.stateChange ∧
      m.incarnation = m'.incarnation ∧ m.server = m'.server ∧ m.gen = m'.gen) ∨
    m'.stateChange ∈ op.times := by
    refine step_induct (Q := fun c => ∀ m', c.members.get id = some m' → m'.state = .suspect →
      (∃ m, member e id = some m ∧ m.state = .suspect ∧ m.stateChange = m'.stateChange ∧
      m.incarnation = m'.incarnation ∧ m.server = m'.server ∧ m.gen = m'.gen) ∨
    m'.stateChange ∈ op.times) hg op id
      (fun m h1 h2 => .inl ⟨m, h1, h2, rfl, rfl, rfl, rfl⟩) ?_
    intro c x hx hc hq hch
    revert hch
    generalize (act cfg env c x).members.get id = o'
    generalize ho : c.members.get id = o
    intro hch m' hm' hs'
    cases hch with
    | same => exact hq _ (ho.trans hm') hs'
    | confirm => cases hm'; have := hq _ ho hs'; exact this
    | refuted x m acc h1 hl =>
      cases hm'
      have := (hc.inv.local_get (h1 ▸ ho)).state
      rw [hl] at this
      dsimp only at hs'
      rw [this] at hs'; cases hs'
    | suspected b now m => cases hm'; exact .inr (actOf_time hx rfl)
    | killed => cases hm'; dsimp only at hs'; split at hs' <;> cases hs'
    | expired => cases hm'; cases hs'
    | newer a ok off now m =>
      cases hm'
      rw [(adoptAlive_fields a none now { m with susp := none }).1] at hs'
      cases hs'
    | reclaimed a ok off now m =>
      cases hm'
      rw [(adoptAlive_fields a _ now { m with susp := none }).1] at hs'
      cases hs'
    | new a ok off now =>
      cases hm'
      rw [(adoptAlive_fields a _ now _).1] at hs'
      cases hs'
    | reaped => cases hm'
    | metadata md m h1 hl =>
      cases hm'
      have := (hc.inv.local_get (h1 ▸ ho)).state
      rw [hl] at this
      dsimp only at hs'
      rw [this] at hs'; cases hs'
    | left => cases hm'; cases hs'
  exact this m' h' hs

/-- A suspected member has been suspected, at the same incarnation, since the call that put it into
suspicion. -/
theorem suspected_since {t0 : Nat} {e0 : Ep I A} (h0 : tryNew cfg env t0 = .ok e0) (ops : List (Op I A)) {id : I} :
    ∀ {m : Member I A}, member (Ep.run cfg env e0 ops) id = some m → m.state = .suspect →
    ∃ pre op post, ops = pre ++ op :: post ∧ m.stateChange ∈ op.times ∧
      ∀ mid rest, post = mid ++ rest → ∃ m1, member (Ep.run cfg env e0 (pre ++ op :: mid)) id = some m1 ∧
        m1.state = .suspect ∧ m1.stateChange = m.stateChange ∧ m1.incarnation = m.incarnation := by
  induction ops using snoc_induction with
  | h0 =>
    intro m hm hs
    exfalso
    have hm : e0.core.members.get id = some m := hm
    rw [tryNew_core h0] at hm
    have h1 := Table.get_mem hm
    have h3 : (Core.init cfg env t0).members = [_] := rfl
    rw [h3, List.mem_singleton] at h1
    rw [h1] at hs
    cases hs
  | h1 ops op ih =>
    intro m hm hs
    have hg := reachable_good (reachable_run (reachable_new h0) ops)
    have hm' := hm
    rw [run_snoc] at hm'
    rcases suspect_origin hg op hm' hs with ⟨m1, h1, h2, h3, h4, _, _⟩ | h1
    · obtain ⟨pre, o, post, he, ht, hall⟩ := ih h1 h2
      refine ⟨pre, o, post ++ [op], by rw [he]; simp, by rw [← h3]; exact ht, ?_⟩
      intro mid rest hmid
      rcases List.eq_nil_or_concat rest with rfl | ⟨rest', x, rfl⟩
      · rw [List.append_nil] at hmid
        refine ⟨m, ?_, hs, rfl, rfl⟩
        rw [← hmid]
        rw [he] at hm
        simpa using hm
      · rw [List.concat_eq_append, ← List.append_assoc] at hmid
        have := List.append_inj' hmid rfl
        obtain ⟨m2, k1, k2, k3, k4⟩ := hall mid rest' this.1
        exact ⟨m2, k1, k2, k3.trans h3, k4.trans h4⟩
    · refine ⟨ops, op, [], rfl, h1, ?_⟩
      intro mid rest hmid
      have : mid = [] := (List.append_eq_nil_iff.1 hmid.symm).1
      subst this
      exact ⟨m, hm, hs, rfl, rfl⟩

end Verif.Ep
