import Verif.Proof.ClusterCore
/-
What a node says about itself is what it records of itself.
-/
namespace Verif.Cluster
open Verif Core Ep Spec
variable {I A : Type} [DecidableEq I] [DecidableEq A]
variable {cfg : Cfg I A} {env : Env I A}

/-- What a node may say about itself: its record, and once it left, that it left. -/
def OwnMsg (own : Member I A) (lc : Lifecycle) (msg : Message I A) : Prop :=
  msg = .alive (aliveOf own.server own.incarnation) ∨
    (lc = .left ∧ msg = .dead { incarnation := own.incarnation, node := own.server.id, src := own.server.id })

/-- The claims about the local node that wait to be sent. -/
def OwnQ (cfg : Cfg I A) (c : Core I A) : Prop :=
  c.bcast.calls ≤ U64_MAX → ∀ own, c.members.get cfg.localId = some own →
    c.bcast.All (fun _ b => b.1 = cfg.localId → OwnMsg own c.lifecycle b.2)

/-- What an action does to the queued claims about the local node. -/
inductive OwnStep (cfg : Cfg I A) (env : Env I A) (c c' : Core I A) : Prop
  | others (hm : ∀ own', c'.members.get cfg.localId = some own' → ∃ own, c.members.get cfg.localId = some own ∧
        own.server = own'.server ∧ own.incarnation = own'.incarnation)
      (hl : c'.lifecycle = c.lifecycle) (hc : c.bcast.calls ≤ c'.bcast.calls)
      (hq : ∀ P : Nat → I × Message I A → Prop, (∀ n b, b.1 ≠ cfg.localId → P n b) → c.bcast.All P → c'.bcast.All P)
  | own (msg : Message I A) (hq : c'.bcast = (c.bcast.queueBroadcast (Core.ops env) (cfg.localId, msg)).1)
      (hm : ∀ own', c'.members.get cfg.localId = some own' → OwnMsg own' c'.lifecycle msg)

theorem OwnStep.ok {c c' : Core I A} (h : OwnStep cfg env c c') (hq : QOk env c.bcast) (ho : OwnQ cfg c) : OwnQ cfg c' := by
  intro hc own' hm'
  cases h with
  | others hm hl hcc hqq =>
    obtain ⟨own, hown, e1, e2⟩ := hm own' hm'
    refine hqq _ (fun n b hb e => absurd e hb) ?_
    have := ho (by omega) own hown
    intro x hx e
    have h2 := this x hx e
    unfold OwnMsg at h2 ⊢
    rw [← e1, ← e2, hl]
    exact h2
  | own msg hqq hm =>
    rw [hqq] at hc ⊢
    rw [queue_calls] at hc
    obtain ⟨b, _, hb, _, hu⟩ := queued_only hq (by omega) cfg.localId msg
    intro x hx e
    rw [hu x hx e, hb]
    exact hm own' hm'

theorem OwnStep.refl (c : Core I A) : OwnStep cfg env c c :=
  .others (fun own h => ⟨own, h, rfl, rfl⟩) rfl (Nat.le_refl _) (fun _ _ h => h)

/-- A claim about another node is queued. -/
theorem OwnStep.add {c c' : Core I A} {id : I} {msg : Message I A} (hid : id ≠ cfg.localId)
    (hm : c'.members.get cfg.localId = c.members.get cfg.localId) (hl : c'.lifecycle = c.lifecycle)
    (hq : c'.bcast = (c.bcast.queueBroadcast (Core.ops env) (id, msg)).1) : OwnStep cfg env c c' := by
  refine .others (fun own h => ⟨own, by rw [← hm]; exact h, rfl, rfl⟩) hl (by rw [hq, queue_calls]; omega) ?_
  intro P hP h
  rw [hq]
  exact BQueue.All.queueBroadcast h _ (hP _ _ hid)

/-- The queue is not touched. -/
theorem OwnStep.keep {c c' : Core I A} (hm : c'.members.get cfg.localId = c.members.get cfg.localId)
    (hl : c'.lifecycle = c.lifecycle) (hq : c'.bcast = c.bcast) : OwnStep cfg env c c' :=
  .others (fun own h => ⟨own, by rw [← hm]; exact h, rfl, rfl⟩) hl (by rw [hq]) (fun P _ h => by rw [hq]; exact h)

theorem OwnStep.refute {c : Core I A} (hl : c.lifecycle = .running) (hi : Inv cfg c) (acc : Nat) :
    OwnStep cfg env c (c.refute cfg env acc) := by
  obtain ⟨m, hm, hlo⟩ := hi.loc
  have hid : m.server.id = cfg.localId := get_id hm
  refine .own (.alive (aliveOf m.server (refuteInc c.incarnation acc))) ?_ ?_
  · rw [refute_running env hl hm]
    show (c.bcast.queueBroadcast (Core.ops env) (m.server.id, _)).1 = _
    rw [hid]
  · intro own' h'
    rw [get_refute hl hm acc, if_pos rfl] at h'
    cases h'
    exact .inl rfl

theorem ownStep_dead {c : Core I A} (hg : Good cfg c) (d : BadState I) (now : Nat) :
    OwnStep cfg env c (c.processDead cfg env d now) := by
  apply processDead_cases cfg env c d now (fun c' => OwnStep cfg env c c') (.refl c)
  · intro m hm _ hn hl hst
    refine .refute ?_ hg.inv _
    have := (hg.inv.local_get (m := m) (by rw [← hn]; exact hm)).state
    cases hlc : c.lifecycle with
    | running => rfl
    | leaving => exact absurd hlc hl
    | left => rw [hlc] at this; exact absurd this hst
  · intro m _ _ _ _ _ hl; exact absurd hl hg.settled
  · intro m hm _ _ _ hn hl
    refine .add (id := d.node) (msg := .dead d) hn ?_ rfl rfl
    rw [get_killed hm, if_neg (fun e => hn e.symm)]

theorem ownStep_suspect {c : Core I A} (hg : Good cfg c) (s : BadState I) (now : Nat) :
    OwnStep cfg env c (c.processSuspect cfg env s now) := by
  apply processSuspect_cases cfg env c s now (fun c' => OwnStep cfg env c c') (.refl c)
  · intro m susp susp' d hl hm _ hs _
    have hn : s.node ≠ cfg.localId := by
      intro e
      rw [e] at hm
      rw [hg.inv.local_susp hm] at hs
      cases hs
    refine .add (id := s.node) (msg := .suspect s) hn ?_ rfl rfl
    show Table.get (c.members.update s.node _) cfg.localId = _
    rw [Table.get_update _ _ _ _ (by intro m hm; exact hm), if_neg (fun e => hn e.symm)]
  · intro m hl _ _ _ _; exact .refute hl hg.inv _
  · intro m mn mx hl hm _ _ _ hn _
    refine .add (id := s.node) (msg := .suspect s) hn ?_ rfl rfl
    show Table.get ((c.members.update s.node _).update s.node _) cfg.localId = _
    rw [Table.get_update _ _ _ _ (by intro m hm; exact hm), if_neg (fun e => hn e.symm),
      Table.get_update _ _ _ _ (by intro m hm; exact hm), if_neg (fun e => hn e.symm)]

theorem adopted_lifecycle (c : Core I A) (a : Alive I A) (upd : Bool) (m : Member I A) (now : Nat) :
    (c.adopted env a upd m now).lifecycle = c.lifecycle := by
  unfold Core.adopted
  dsimp only
  split <;> rfl

theorem ownStep_alive {c : Core I A} (hg : Good cfg c) (a : Alive I A) (ok : Bool) (off now : Nat) :
    OwnStep cfg env c (c.processAlive cfg env a ok off now) := by
  apply processAlive_cases cfg env c a ok off now (fun c' => OwnStep cfg env c c') (.refl c)
  · intros; exact .keep rfl rfl rfl
  · intros; exact .keep rfl rfl rfl
  · intro m hl hok hm hn
    rw [hn]
    exact .keep (by rw [clearSuspicion_local hg.inv]) rfl rfl
  · intro m hl _ hm hn _
    have h1 : OwnStep cfg env (c.clearSuspicion a.node.id) ((c.clearSuspicion a.node.id).refute cfg env a.incarnation) :=
      OwnStep.refute (c := c.clearSuspicion a.node.id) hl (hg.inv.clearLocal hn) _
    cases h1 with
    | own msg hq hm => exact .own msg hq hm
    | others hm2 hl2 hc2 hq2 =>
      refine .others ?_ hl2 hc2 hq2
      intro own' h'
      obtain ⟨own, h1, h2, h3⟩ := hm2 own' h'
      rw [hn, clearSuspicion_local hg.inv] at h1
      exact ⟨own, h1, h2, h3⟩
  · intro m hl _ hm hn _ _
    refine .add (id := a.node.id) (msg := .alive a) hn ?_ (adopted_lifecycle ..) (adopted_queue ..)
    rw [get_adopted hm, if_neg (fun e => hn e.symm)]
  · intro m hl _ hm hn _ _
    refine .add (id := a.node.id) (msg := .alive a) hn ?_ (adopted_lifecycle ..) (adopted_queue ..)
    rw [get_adopted hm, if_neg (fun e => hn e.symm)]
  · intro hl _ hm hn _
    refine .add (id := a.node.id) (msg := .alive a) hn ?_ (adopted_lifecycle ..) (adopted_queue ..)
    have := get_withPlaceholder' hg.inv a off now hm
    rw [get_adopted (by rw [this, if_pos rfl]), if_neg (fun e => hn e.symm), this, if_neg (fun e => hn e.symm)]
  · obtain ⟨m, hm, _⟩ := hg.inv.loc
    rw [hm]; rfl
  · intro m hl hm
    have := (hg.inv.local_get hm).state
    rw [hl] at this
    simpa using this
  · exact hg.inv.nodup

theorem OwnQ.act {c : Core I A} (hg : Good cfg c) (hq : QOk env c.bcast) (h : OwnQ cfg c) (x : Act I A) :
    OwnQ cfg (Core.act cfg env c x) := by
  cases x with
  | alive a ok off now => exact (ownStep_alive hg a ok off now).ok hq h
  | suspect s now => exact (ownStep_suspect hg s now).ok hq h
  | dead d now => exact (ownStep_dead hg d now).ok hq h
  | expire now =>
    simp only [Core.act]
    split
    · unfold fireExpiredSuspicions
      generalize c.expiredIds now = ids
      induction ids generalizing c with
      | nil => exact h
      | cons id ids ih =>
        rw [List.foldl_cons]
        have hs : QOk env (expireOne cfg env now c id).bcast :=
          (qs_act (env := env) hg (.dead _ now)).ok hq
        exact ih (Good.act hg (.dead _ now)) hs ((ownStep_dead hg _ now).ok hq h) (by
          show (c.processDead cfg env _ now).lifecycle = _
          rw [processDead_lifecycle _ _ _ hg.settled]; assumption)
    · exact h
  | reset pick now =>
    refine OwnStep.ok (env := env) ?_ hq h
    have hch := act_change (env := env) hg (.reset pick now) cfg.localId
    refine .keep ?_ ?_ (resetNodes_bcast c pick now)
    · generalize hgo : (Core.act cfg env c (.reset pick now)).members.get cfg.localId = o' at hch
      generalize hgo2 : c.members.get cfg.localId = o at hch
      cases hch with
      | same => rfl
      | refuted _ m acc _ _ ha => cases ha
      | reaped _ _ m h1 =>
        obtain ⟨l, hl, _⟩ := (Good.act (env := env) hg (.reset pick now)).inv.loc
        rw [hl] at hgo; cases hgo
    · rcases act_lifecycle (env := env) hg (.reset pick now) with e | ⟨_, e, _⟩
      · exact e
      · cases e
  | updateMeta md =>
    simp only [Core.act]
    split
    · refine OwnStep.ok (env := env) ?_ hq h
      refine .own _ rfl ?_
      obtain ⟨m, hm, hlo⟩ := hg.inv.loc
      intro own' h'
      rw [show (c.updateMeta cfg env md).members = c.members.update cfg.localId _ from rfl,
        Table.get_update _ _ _ _ (by intro m hm; rfl), if_pos rfl, hm] at h'
      cases h'
      exact .inl rfl
    · exact h
  | push ev => simp only [Core.act]; split <;> exact h
  | drain o l =>
    intro hc own hm
    exact (BQueue.takeMeasured_all (h (by
      have : c.bcast.calls = (Core.act cfg env c (.drain o l)).bcast.calls := (take_calls _ _ _ _).symm
      omega) own hm) _ _ _).left
  | one l =>
    intro hc own hm
    exact (BQueue.takeOne_all (h (by
      have : c.bcast.calls = (Core.act cfg env c (.one l)).bcast.calls := (one_calls _ _ _).symm
      omega) own hm) _ _).1
  | leave now =>
    simp only [Core.act]
    split
    · rename_i hl
      obtain ⟨m, hm, hlo⟩ := hg.inv.loc
      have hst : m.state = .alive := by have := hlo.state; rw [hl] at this; simpa using this
      rw [beginLeave_eq env hm hlo.inc hst]
      refine OwnStep.ok (env := env) ?_ hq h
      refine .own (.dead { incarnation := c.incarnation, node := cfg.localId, src := cfg.localId }) rfl ?_
      intro own' h'
      have hk := get_killed (env := env) (c := { c with lifecycle := .leaving, events := c.events.filter (fun e => !e.isDial) })
        (d := { incarnation := c.incarnation, node := cfg.localId, src := cfg.localId }) (st := .left) (now := now) hm
        cfg.localId
      rw [if_pos rfl] at hk
      have h' : (Core.killed env
          { c with lifecycle := .leaving, events := c.events.filter (fun e => !e.isDial) }
          { incarnation := c.incarnation, node := cfg.localId, src := cfg.localId } m .left now).members.get
            cfg.localId = some own' := h'
      rw [hk] at h'
      cases h'
      refine .inr ⟨rfl, ?_⟩
      have : m.server.id = cfg.localId := get_id hm
      rw [this]
    · exact h
  | pop => exact h
  | dropDials => exact h
  | fail sev => exact h
  | success => exact h

end Verif.Cluster
