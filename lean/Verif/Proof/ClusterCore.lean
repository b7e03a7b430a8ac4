import Verif.Proof.ClusterCodec
import Verif.Proof.Claims
/-
What a node may believe and pass on, given what the nodes of its cluster did: the membership core.
-/
namespace Verif.Cluster
open Verif Core Ep Spec
variable {I A : Type}

/-- What happened in a cluster: the records the nodes had of themselves, the unanswered probes and the departures, by
node and incarnation. -/
structure Facts (I A : Type) where
  ann : Alive I A → Prop
  failed : I → Nat → Prop
  gone : I → Nat → Prop

namespace Facts

/-- There is a reason to count the node as suspect, dead or left in this incarnation. -/
def Accused (K : Facts I A) (i : I) (k : Nat) : Prop := K.failed i k ∨ K.gone i k

/-- More happened. -/
structure Le (K K' : Facts I A) : Prop where
  ann : ∀ a, K.ann a → K'.ann a
  failed : ∀ i k, K.failed i k → K'.failed i k
  gone : ∀ i k, K.gone i k → K'.gone i k

theorem Le.accused {K K' : Facts I A} (h : K.Le K') {i : I} {k : Nat} (ha : K.Accused i k) : K'.Accused i k :=
  ha.imp (h.failed i k) (h.gone i k)

/-- Announcements are well formed, and nobody is accused in an incarnation above its own. -/
structure Sane (K : Facts I A) : Prop where
  wf : ∀ a, K.ann a → MessageWF (.alive a)
  reach : ∀ i k, K.Accused i k → ∃ a, K.ann a ∧ a.node.id = i ∧ k ≤ a.incarnation

end Facts

/-- What a record may say: its contents were announced, not after its incarnation; as alive it is an announcement, and
otherwise there is a reason. -/
structure OkRec (K : Facts I A) (n : Alive I A) (st : NState) : Prop where
  base : ∃ a, K.ann a ∧ a.node = n.node ∧ a.metadata = n.metadata ∧ a.pv = n.pv ∧ a.dv = n.dv ∧
    a.incarnation ≤ n.incarnation
  live : st = .alive → K.ann n
  bad : st ≠ .alive → K.Accused n.node.id n.incarnation
  left : st = .left → K.gone n.node.id n.incarnation
  known : st = .alive ∨ st = .suspect ∨ st = .dead ∨ st = .left

/-- What a message may say. -/
def OkMsg (K : Facts I A) : Message I A → Prop
  | .alive a => K.ann a
  | .suspect s => K.Accused s.node s.incarnation
  | .dead d => K.Accused d.node d.incarnation ∧ (d.node = d.src → K.gone d.node d.incarnation)
  | .pushPull p => ∀ r ∈ p.states, OkRec K (claimOf r) r.state
  | _ => True

theorem OkRec.mono {K K' : Facts I A} (h : K.Le K') {n : Alive I A} {st : NState} (ho : OkRec K n st) : OkRec K' n st := by
  obtain ⟨⟨a, h1, h2⟩, h3, h4, h5, h6⟩ := ho
  exact ⟨⟨a, h.ann a h1, h2⟩, fun e => h.ann _ (h3 e), fun e => h.accused (h4 e), fun e => h.gone _ _ (h5 e), h6⟩

theorem OkMsg.mono {K K' : Facts I A} (h : K.Le K') {m : Message I A} (ho : OkMsg K m) : OkMsg K' m := by
  cases m with
  | alive a => exact h.ann a ho
  | suspect s => exact h.accused ho
  | dead d => exact ⟨h.accused ho.1, fun e => h.gone _ _ (ho.2 e)⟩
  | pushPull p => exact fun r hr => (ho r hr).mono h
  | _ => trivial

theorem OkMsg.of_not {K : Facts I A} {m : Message I A} (h : ¬ AboutMembers m) : OkMsg K m := by
  cases m with
  | alive a => exact absurd trivial h
  | suspect s => exact absurd trivial h
  | dead d => exact absurd trivial h
  | pushPull p => exact absurd trivial h
  | _ => trivial

theorem OkRec.wf {K : Facts I A} (hK : K.Sane) {r : PushNodeState I A} (h : OkRec K (claimOf r) r.state) :
    PushNodeStateWF r := by
  obtain ⟨a, ha, e1, e2, e3, e4, e5⟩ := h.base
  obtain ⟨w1, w2, w3, w4⟩ := hK.wf a ha
  have hinc : r.incarnation < 2 ^ 32 := by
    by_cases hs : r.state = .alive
    · exact (hK.wf _ (h.live hs)).1
    · obtain ⟨a', ha', _, hle⟩ := hK.reach _ _ (h.bad hs)
      exact Nat.lt_of_le_of_lt hle (hK.wf a' ha').1
  refine ⟨hinc, ?_, ?_, ?_, ?_⟩
  · have : a.metadata = r.metadata := e2
    rw [← this]; exact w2
  · rcases h.known with e | e | e | e <;> rw [e] <;> trivial
  · have : a.pv = r.pv := e3
    rw [← this]; exact w3
  · have : a.dv = r.dv := e4
    rw [← this]; exact w4

theorem OkMsg.wf {K : Facts I A} (hK : K.Sane) {m : Message I A} (h : OkMsg K m) (ha : AboutMembers m) : MessageWF m := by
  cases m with
  | alive a => exact hK.wf a h
  | suspect s =>
    obtain ⟨a, ha, _, hle⟩ := hK.reach _ _ h
    exact Nat.lt_of_le_of_lt hle (hK.wf a ha).1
  | dead d =>
    obtain ⟨a, ha, _, hle⟩ := hK.reach _ _ h.1
    exact Nat.lt_of_le_of_lt hle (hK.wf a ha).1
  | pushPull p => exact fun r hr => (h r hr).wf hK
  | ping => exact absurd ha id
  | indirectPing => exact absurd ha id
  | ack => exact absurd ha id
  | userData => exact absurd ha id
  | nack => exact absurd ha id
  | errorResponse => exact absurd ha id

theorem OkMsg.decodes {K : Facts I A} (hK : K.Sane) {m m' : Message I A} (h : OkMsg K m) (hd : Decodes m m') :
    OkMsg K m' := by
  by_cases ha : AboutMembers m
  · rw [hd.1 (h.wf hK ha)]; exact h
  · exact .of_not (hd.2 ha)

variable [DecidableEq I] [DecidableEq A]
variable {cfg : Cfg I A} {env : Env I A}

omit [DecidableEq I] [DecidableEq A] in
/-- The record of a member. -/
abbrev OkMem (K : Facts I A) (m : Member I A) : Prop := OkRec K (aliveOf m.server m.incarnation) m.state

/-- What the core may hold about other nodes. -/
structure CoreOk (K : Facts I A) (cfg : Cfg I A) (c : Core I A) : Prop where
  recs : ∀ id m, c.members.get id = some m → id ≠ cfg.localId → OkMem K m
  bc : c.bcast.All (fun _ b => b.1 ≠ cfg.localId → OkMsg K b.2)

/-- The claims an action brings in are admissible. -/
def OkAct (K : Facts I A) : Act I A → Prop
  | .alive a _ _ _ => K.ann a
  | .suspect s _ => OkMsg K (.suspect s : Message I A)
  | .dead d _ => OkMsg K (.dead d : Message I A)
  | _ => True

omit [DecidableEq I] [DecidableEq A] in
theorem OkAct.mono {K K' : Facts I A} (h : K.Le K') {x : Act I A} (hx : OkAct K x) : OkAct K' x := by
  cases x with
  | alive a ok off now => exact h.ann a hx
  | suspect s now => exact OkMsg.mono (m := (.suspect s : Message I A)) h hx
  | dead d now => exact OkMsg.mono (m := (.dead d : Message I A)) h hx
  | _ => trivial

omit [DecidableEq I] [DecidableEq A] in
theorem adoptAlive_facts (a : Alive I A) (gen : Option Nat) (now : Nat) (m : Member I A) :
    aliveOf (adoptAlive a gen now m).server (adoptAlive a gen now m).incarnation = a ∧
      (adoptAlive a gen now m).state = .alive := by
  unfold adoptAlive
  dsimp only
  split
  · exact ⟨rfl, rfl⟩
  · rename_i h
    exact ⟨rfl, by simpa using h⟩

omit [DecidableEq I] [DecidableEq A] in
theorem OkMem.adopted {K : Facts I A} {a : Alive I A} (h : K.ann a) (gen : Option Nat) (now : Nat) (m : Member I A) :
    OkMem K (adoptAlive a gen now m) := by
  obtain ⟨h1, h2⟩ := adoptAlive_facts a gen now m
  unfold OkMem
  rw [h1, h2]
  exact ⟨⟨a, h, rfl, rfl, rfl, rfl, Nat.le_refl _⟩, fun _ => h, fun e => absurd rfl e, nofun, .inl rfl⟩

theorem change_ok {K : Facts I A} {c : Core I A} {id : I} (hid : id ≠ cfg.localId) {x : Act I A}
    {o o' : Option (Member I A)} (hx : OkAct K x) (hin : ∀ m, o = some m → m.id = id)
    (hs : ∀ m, o = some m → (m.susp.isSome = true ↔ m.state = .suspect))
    (ho : ∀ m, o = some m → OkMem K m) (h : Change cfg env c id x o o') : ∀ m, o' = some m → OkMem K m := by
  cases h with
  | same => exact ho
  | confirm s now m susp susp' d h1 h2 h3 h4 h5 h6 =>
    intro _ hm2; cases hm2
    exact ⟨(ho m rfl).base, (ho m rfl).live, (ho m rfl).bad, (ho m rfl).left, (ho m rfl).known⟩
  | refuted _ m acc h1 => exact absurd h1 hid
  | suspected s now m mn mx h1 h2 h3 h4 h5 h6 h7 =>
    intro _ hm2; cases hm2
    have hm := ho m rfl
    have e : m.server.id = s.node := (hin m rfl).trans h1.symm
    obtain ⟨a, ha, e1, e2, e3, e4, e5⟩ := hm.base
    refine ⟨⟨a, ha, e1, e2, e3, e4, Nat.le_trans e5 h4⟩, nofun, fun _ => ?_, nofun, .inr (.inl rfl)⟩
    show K.Accused m.server.id s.incarnation
    rw [e]; exact hx
  | killed d now m h1 h2 h3 h4 h5 h6 =>
    intro _ hm2; cases hm2
    have hm := ho m rfl
    have e : m.server.id = d.node := (hin m rfl).trans h1.symm
    obtain ⟨a, ha, e1, e2, e3, e4, e5⟩ := hm.base
    refine ⟨⟨a, ha, e1, e2, e3, e4, Nat.le_trans e5 h4⟩, ?_, fun _ => ?_, ?_, ?_⟩
    · dsimp only; split <;> nofun
    · show K.Accused m.server.id d.incarnation
      rw [e]; exact hx.1
    · intro hst
      dsimp only at hst
      split at hst
      · rename_i he
        show K.gone m.server.id d.incarnation
        rw [e]; exact hx.2 he
      · cases hst
    · dsimp only; split <;> simp
  | expired now m s h1 h2 h3 h4 =>
    intro _ hm2; cases hm2
    have hm := ho m rfl
    have hst : m.state = .suspect := (hs m rfl).1 (by rw [h3]; rfl)
    exact ⟨hm.base, nofun, fun _ => hm.bad (by rw [hst]; nofun), nofun, .inr (.inr (.inl rfl))⟩
  | newer a ok off now m => intro _ hm2; cases hm2; exact .adopted hx _ _ _
  | reclaimed a ok off now m => intro _ hm2; cases hm2; exact .adopted hx _ _ _
  | new a ok off now => intro _ hm2; cases hm2; exact .adopted hx _ _ _
  | reaped => nofun
  | metadata md m h1 => exact absurd h1 hid
  | left now m h1 => exact absurd h1 hid

theorem get_id {t : Table I A} {id : I} {m : Member I A} (h : t.get id = some m) : m.id = id := by
  unfold Table.get at h
  have := List.find?_some h
  simpa using this

theorem recs_act {K : Facts I A} {c : Core I A} (hg : Good cfg c) {x : Act I A} (hx : OkAct K x)
    (h : ∀ id m, c.members.get id = some m → id ≠ cfg.localId → OkMem K m) :
    ∀ id m, (Core.act cfg env c x).members.get id = some m → id ≠ cfg.localId → OkMem K m := by
  intro id m hm hid
  exact change_ok (env := env) (c := c) hid hx (fun m hm => get_id hm) (fun m hm => (hg.inv.mem id m hm).susp)
    (fun m hm => h id m hm hid) (act_change hg x id) m hm

/-- What is in the queue is admissible. -/
abbrev QueueOk (K : Facts I A) (cfg : Cfg I A) (q : BQueue I (I × Message I A)) : Prop :=
  q.All (fun _ b => b.1 ≠ cfg.localId → OkMsg K b.2)

theorem QueueOk.add {K : Facts I A} {q : BQueue I (I × Message I A)} (h : QueueOk K cfg q) {id : I}
    {msg : Message I A} (hm : id ≠ cfg.localId → OkMsg K msg) :
    QueueOk K cfg (q.queueBroadcast (Core.ops env) (id, msg)).1 :=
  BQueue.All.queueBroadcast h (id, msg) hm

theorem QueueOk.refute {K : Facts I A} {c : Core I A} (hl : c.lifecycle = .running) (hi : Inv cfg c)
    (h : QueueOk K cfg c.bcast) (acc : Nat) : QueueOk K cfg (c.refute cfg env acc).bcast := by
  obtain ⟨m, hm, _⟩ := hi.loc
  rw [refute_running env hl hm]
  exact QueueOk.add (env := env) (q := c.bcast) h (fun hne => absurd (get_id hm) hne)

theorem adopted_queue (c : Core I A) (a : Alive I A) (upd : Bool) (m : Member I A) (now : Nat) :
    (c.adopted env a upd m now).bcast = (c.bcast.queueBroadcast (Core.ops env) (a.node.id, .alive a)).1 := by
  unfold Core.adopted
  dsimp only
  split <;> rfl

theorem queue_dead {K : Facts I A} {c : Core I A} (hg : Good cfg c) (d : BadState I) (now : Nat)
    (hd : d.node ≠ cfg.localId → OkMsg K (.dead d : Message I A)) (h : QueueOk K cfg c.bcast) :
    QueueOk K cfg (c.processDead cfg env d now).bcast := by
  apply processDead_cases cfg env c d now (fun c' => QueueOk K cfg c'.bcast) h
  · intro m hm _ hn hl hst
    refine QueueOk.refute ?_ hg.inv h _
    have := (hg.inv.local_get (m := m) (by rw [← hn]; exact hm)).state
    cases hlc : c.lifecycle with
    | running => rfl
    | leaving => exact absurd hlc hl
    | left => rw [hlc] at this; exact absurd this hst
  · intros; exact h.add (env := env) hd
  · intros; exact h.add (env := env) hd

theorem coreOk_dead {K : Facts I A} {c : Core I A} (hg : Good cfg c) (d : BadState I) (now : Nat)
    (hd : OkMsg K (.dead d : Message I A)) (h : CoreOk K cfg c) : CoreOk K cfg (c.processDead cfg env d now) :=
  ⟨recs_act (x := .dead d now) hg hd h.recs, queue_dead hg d now (fun _ => hd) h.bc⟩

theorem queue_suspect {K : Facts I A} {c : Core I A} (hg : Good cfg c) (s : BadState I) (now : Nat)
    (hs : OkMsg K (.suspect s : Message I A)) (h : QueueOk K cfg c.bcast) :
    QueueOk K cfg (c.processSuspect cfg env s now).bcast := by
  apply processSuspect_cases cfg env c s now (fun c' => QueueOk K cfg c'.bcast) h
  · intros; exact h.add (env := env) (fun _ => hs)
  · intro m hl _ _ _ _; exact QueueOk.refute hl hg.inv h _
  · intros; exact h.add (env := env) (fun _ => hs)

theorem queue_alive {K : Facts I A} {c : Core I A} (hg : Good cfg c) (a : Alive I A) (ok : Bool) (off now : Nat)
    (ha : K.ann a) (h : QueueOk K cfg c.bcast) :
    QueueOk K cfg (c.processAlive cfg env a ok off now).bcast := by
  apply processAlive_cases cfg env c a ok off now (fun c' => QueueOk K cfg c'.bcast) h
  · intros; exact h
  · intros; exact h
  · intros; exact h
  · intro m hl _ hm hn _
    exact QueueOk.refute (c := c.clearSuspicion a.node.id) hl (hg.inv.clearLocal hn) h _
  · intros; rw [adopted_queue]; exact h.add (env := env) (fun _ => ha)
  · intros; rw [adopted_queue]; exact h.add (env := env) (fun _ => ha)
  · intros; rw [adopted_queue]; exact QueueOk.add (env := env) (q := c.bcast) h (fun _ => ha)
  · obtain ⟨m, hm, _⟩ := hg.inv.loc
    rw [hm]; rfl
  · intro m hl hm
    have := (hg.inv.local_get hm).state
    rw [hl] at this
    simpa using this
  · exact hg.inv.nodup

theorem dead_not_alive {c : Core I A} (hg : Good cfg c) (d : BadState I) (now : Nat) {id : I}
    (h : ∀ m, c.members.get id = some m → m.state ≠ .alive) :
    ∀ m, (c.processDead cfg env d now).members.get id = some m → m.state ≠ .alive := by
  have hch := act_change (env := env) hg (.dead d now) id
  intro m' hm'
  have e : (Core.act cfg env c (.dead d now)).members.get id = some m' := hm'
  rw [e] at hch
  generalize hgo : c.members.get id = o at hch
  rw [hgo] at h
  cases hch with
  | same => exact h m' rfl
  | refuted _ m => exact h m rfl
  | killed d now m => dsimp only; split <;> nofun

theorem coreOk_expire {K : Facts I A} {c : Core I A} (hg : Good cfg c) (now : Nat) (h : CoreOk K cfg c) :
    CoreOk K cfg (c.fireExpiredSuspicions cfg env now) := by
  unfold fireExpiredSuspicions
  have hids : ∀ id ∈ c.expiredIds now, id ≠ cfg.localId ∧ ∀ m, c.members.get id = some m → m.state ≠ .alive := by
    intro id hid
    obtain ⟨m, s, hm, hs, _⟩ := (mem_expiredIds hg.inv).1 hid
    refine ⟨?_, ?_⟩
    · rintro rfl
      rw [hg.inv.local_susp hm] at hs
      cases hs
    · intro m' hm'
      rw [hm] at hm'
      cases hm'
      rw [(hg.inv.mem _ _ hm).susp.1 (by rw [hs]; rfl)]
      nofun
  generalize c.expiredIds now = ids at hids
  induction ids generalizing c with
  | nil => exact h
  | cons id ids ih =>
    rw [List.foldl_cons]
    obtain ⟨hne, hst⟩ := hids id (List.mem_cons_self ..)
    have hok : OkMsg K (.dead { incarnation := match c.members.get id with | some m => m.incarnation | none => 0
                                node := id, src := cfg.localId } : Message I A) ∨ c.members.get id = none := by
      cases hm : c.members.get id with
      | none => exact .inr rfl
      | some m =>
        refine .inl ⟨?_, fun e => absurd e hne⟩
        have := (h.recs id m hm hne).bad (hst m hm)
        have e : m.server.id = id := get_id hm
        show K.Accused id m.incarnation
        rw [← e]; exact this
    have hstep : CoreOk K cfg (expireOne cfg env now c id) := by
      rcases hok with hok | hnone
      · exact coreOk_dead hg _ now hok h
      · have : expireOne cfg env now c id = c := by
          unfold expireOne Core.processDead
          dsimp only
          rw [hnone]
        rw [this]; exact h
    refine ih ?_ hstep ?_
    · exact Good.act hg (.dead _ now)
    · intro i hi
      obtain ⟨h1, h2⟩ := hids i (List.mem_cons_of_mem _ hi)
      exact ⟨h1, dead_not_alive hg _ now h2⟩

theorem resetNodes_bcast (c : Core I A) (pick : Nat → Nat) (now : Nat) :
    (c.resetNodes cfg pick now).bcast = c.bcast := by
  unfold Core.resetNodes
  dsimp only
  generalize (c.members.filter (fun m => reapable cfg m now)).map Member.id = ids
  have h0 : (if ids.isEmpty then c else c.bump).bcast = c.bcast := by split <;> rfl
  rw [← h0]
  generalize (if ids.isEmpty then c else c.bump) = c1
  clear h0
  induction ids generalizing c1 with
  | nil => rfl
  | cons id ids ih => rw [List.foldl_cons, ih]

theorem coreOk_act {K : Facts I A} {c : Core I A} (hg : Good cfg c) {x : Act I A} (hx : OkAct K x)
    (h : CoreOk K cfg c) : CoreOk K cfg (Core.act cfg env c x) := by
  refine ⟨recs_act hg hx h.recs, ?_⟩
  cases x with
  | alive a ok off now => exact queue_alive hg a ok off now hx h.bc
  | suspect s now => exact queue_suspect hg s now hx h.bc
  | dead d now => exact queue_dead hg d now (fun _ => hx) h.bc
  | expire now =>
    simp only [Core.act]
    split
    · exact (coreOk_expire hg now h).bc
    · exact h.bc
  | reset pick now => 
    simp only [Core.act]
    rw [resetNodes_bcast]; exact h.bc
  | updateMeta md =>
    simp only [Core.act]
    split
    · exact QueueOk.add (env := env) (q := c.bcast) h.bc (fun e => absurd rfl e)
    · exact h.bc
  | push ev => simp only [Core.act]; split <;> exact h.bc
  | drain o l => exact (BQueue.takeMeasured_all h.bc _ _ _).left
  | one l => exact (BQueue.takeOne_all h.bc _ _).1
  | leave now =>
    simp only [Core.act]
    split
    · rename_i hl
      obtain ⟨m, hm, hlo⟩ := hg.inv.loc
      have hst : m.state = .alive := by have := hlo.state; rw [hl] at this; simpa using this
      rw [beginLeave_eq env hm hlo.inc hst]
      exact QueueOk.add (env := env) (q := c.bcast) h.bc (fun e => absurd rfl e)
    · exact h.bc
  | pop => exact h.bc
  | dropDials => exact h.bc
  | fail sev => exact h.bc
  | success => exact h.bc

end Verif.Cluster
