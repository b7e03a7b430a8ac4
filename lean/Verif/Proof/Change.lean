import Verif.Proof.CoreAct
/-
What an elementary action can do to the record of one id.
-/
namespace Verif.Core
open Verif
variable {I A : Type} [DecidableEq I] [DecidableEq A]

/-- An action that accuses an id, with the incarnation it accuses. An Alive claim about the local node
accuses it of not being itself. -/
inductive Accuses (id : I) : Act I A → Nat → Prop
  | suspect (s : BadState I) (now : Nat) : s.node = id → Accuses id (.suspect s now) s.incarnation
  | dead (d : BadState I) (now : Nat) : d.node = id → Accuses id (.dead d now) d.incarnation
  | alive (a : Alive I A) (ok : Bool) (off now : Nat) : a.node.id = id → ok = true →
    Accuses id (.alive a ok off now) a.incarnation

/-- The possible changes of the record of `id` by an action on `c`. -/
inductive Change (cfg : Cfg I A) (env : Env I A) (c : Core I A) (id : I) :
    Act I A → Option (Member I A) → Option (Member I A) → Prop
  | same (x : Act I A) (o : Option (Member I A)) : Change cfg env c id x o o
  | confirm (s : BadState I) (now : Nat) (m : Member I A) (susp susp' : Suspicion I) (d : Nat) :
    s.node = id → id ≠ cfg.localId → c.lifecycle = .running → m.incarnation ≤ s.incarnation → m.susp = some susp →
    susp.confirm env.accel s.src now = (susp', .accepted d) →
    Change cfg env c id (.suspect s now) (some m) (some { m with susp := some susp' })
  | refuted (x : Act I A) (m : Member I A) (acc : Nat) :
    id = cfg.localId → c.lifecycle = .running → Accuses id x acc → m.incarnation ≤ acc →
    Change cfg env c id x (some m) (some { m with incarnation := refuteInc c.incarnation acc })
  | suspected (s : BadState I) (now : Nat) (m : Member I A) (mn mx : Nat) :
    s.node = id → id ≠ cfg.localId → c.lifecycle = .running → m.incarnation ≤ s.incarnation →
    m.state = .alive → m.susp = none → c.suspicionTimeouts cfg env = (mn, mx) →
    Change cfg env c id (.suspect s now) (some m) (some { m with
      susp := some (Suspicion.new s.src
        (if c.members.length ≥ cfg.suspicionMult then cfg.suspicionMult - 2 else 0) mn mx now)
      incarnation := s.incarnation
      state := .suspect
      stateChange := now })
  | killed (d : BadState I) (now : Nat) (m : Member I A) :
    d.node = id → id ≠ cfg.localId → c.lifecycle = .running → m.incarnation ≤ d.incarnation →
    m.state ≠ .dead → m.state ≠ .left →
    Change cfg env c id (.dead d now) (some m) (some { m with
      susp := none
      incarnation := d.incarnation
      state := if d.node = d.src then .left else .dead
      stateChange := now })
  | expired (now : Nat) (m : Member I A) (s : Suspicion I) :
    id ≠ cfg.localId → c.lifecycle = .running → m.susp = some s → s.deadline ≤ now →
    Change cfg env c id (.expire now) (some m) (some { m with
      susp := none
      state := .dead
      stateChange := now })
  | newer (a : Alive I A) (ok : Bool) (off now : Nat) (m : Member I A) :
    a.node.id = id → id ≠ cfg.localId → c.lifecycle = .running → ok = true →
    m.server.addr = a.node.addr → m.incarnation < a.incarnation →
    Change cfg env c id (.alive a ok off now) (some m) (some (adoptAlive a none now { m with susp := none }))
  | reclaimed (a : Alive I A) (ok : Bool) (off now : Nat) (m : Member I A) :
    a.node.id = id → id ≠ cfg.localId → c.lifecycle = .running → ok = true →
    m.server.addr ≠ a.node.addr → Reclaimable cfg m now →
    Change cfg env c id (.alive a ok off now) (some m)
      (some (adoptAlive a (some c.nextGen) now { m with susp := none }))
  | new (a : Alive I A) (ok : Bool) (off now : Nat) :
    a.node.id = id → id ≠ cfg.localId → c.lifecycle = .running → ok = true →
    Change cfg env c id (.alive a ok off now) none (some (adoptAlive a none now (placeholder a c.nextGen now)))
  | reaped (pick : Nat → Nat) (now : Nat) (m : Member I A) :
    reapable cfg m now = true → Change cfg env c id (.reset pick now) (some m) none
  | metadata (md : Bytes) (m : Member I A) :
    id = cfg.localId → c.lifecycle = .running →
    Change cfg env c id (.updateMeta md) (some m) (some { m with
      incarnation := (c.incarnation + 1) % 2 ^ 32
      server := { id := cfg.localId, addr := cfg.advertise, metadata := md, state := .alive
                  pv := cfg.pv, dv := cfg.dv } })
  | left (now : Nat) (m : Member I A) :
    id = cfg.localId → c.lifecycle = .running →
    Change cfg env c id (.leave now) (some m) (some { m with
      susp := none
      incarnation := c.incarnation
      state := .left
      stateChange := now })

variable {cfg : Cfg I A} {env : Env I A}

theorem get_killed {c : Core I A} {d : BadState I} {m : Member I A} {st : NState} {now : Nat}
    (hm : c.members.get d.node = some m) (id : I) :
    (c.killed env d m st now).members.get id =
      if id = d.node then some { m with
        susp := none
        incarnation := d.incarnation
        state := st
        stateChange := now }
      else c.members.get id := by
  show Table.get ((c.members.update d.node (fun m => { m with susp := none })).update d.node
    (fun m => Member.setState { m with incarnation := d.incarnation } st now)) id = _
  rw [update_update _ _ _ _ (by intro m hm; exact hm), Table.get_update _ _ _ _ (by intro m hm; exact hm)]
  split
  · rename_i e; rw [e, hm]; rfl
  · rfl

omit [DecidableEq I] [DecidableEq A] in
theorem adoptAlive_id (a : Alive I A) (gen : Option Nat) (now : Nat) (m : Member I A) :
    (adoptAlive a gen now m).id = a.node.id := by
  unfold adoptAlive
  dsimp only
  split <;> rfl

theorem get_adopted {c : Core I A} {a : Alive I A} {upd : Bool} {m m0 : Member I A} {now : Nat}
    (hm : c.members.get a.node.id = some m) (id : I) :
    (c.adopted env a upd m0 now).members.get id =
      if id = a.node.id then
        some (adoptAlive a (if upd then some c.nextGen else none) now { m with susp := none })
      else c.members.get id := by
  have : (c.adopted env a upd m0 now).members =
      (c.members.update a.node.id (fun m => { m with susp := none })).update a.node.id
        (adoptAlive a (if upd then some c.nextGen else none) now) := by
    unfold Core.adopted; dsimp only; split <;> rfl
  rw [this, update_update _ _ _ _ (by intro m hm; exact hm),
    Table.get_update _ _ _ _ (by intro m _; exact adoptAlive_id _ _ _ _)]
  split
  · rename_i e; rw [e, hm]; rfl
  · rfl

theorem get_refute {c : Core I A} {m : Member I A} (hl : c.lifecycle = .running)
    (hm : c.members.get cfg.localId = some m) (acc : Nat) (id : I) :
    (c.refute cfg env acc).members.get id =
      if id = cfg.localId then some { m with incarnation := refuteInc c.incarnation acc }
      else c.members.get id := by
  rw [refute_running env hl hm]
  show Table.get (c.members.update cfg.localId _) id = _
  rw [Table.get_update _ _ _ _ (by intro m hm; exact hm)]
  split
  · rename_i e; rw [e, hm]; rfl
  · rfl

theorem processSuspect_change {c : Core I A} (h : Inv cfg c) (s : BadState I) (now : Nat) (id : I) :
    Change cfg env c id (.suspect s now) (c.members.get id) ((c.processSuspect cfg env s now).members.get id) := by
  apply processSuspect_cases cfg env c s now
    (fun c' => Change cfg env c id (.suspect s now) (c.members.get id) (c'.members.get id))
  · exact .same _ _
  · intro m susp susp' d hl hm hi hs hc
    show Change _ _ _ _ _ _ (Table.get (c.members.update s.node (fun m => { m with susp := some susp' })) id)
    rw [Table.get_update _ _ _ _ (by intro m hm; exact hm)]
    split
    · rename_i e
      subst e
      rw [hm]
      refine .confirm s now m susp susp' d rfl ?_ hl hi hs hc
      intro e
      have := h.local_susp (m := m) (by rw [← e]; exact hm)
      rw [hs] at this; cases this
    · exact .same _ _
  · intro m hl hm hi ha hn
    rw [get_refute hl (by rw [← hn]; exact hm)]
    split
    · rename_i e
      rw [e, ← hn, hm]
      exact .refuted _ m _ hn hl (.suspect s now rfl) hi
    · exact .same _ _
  · intro m mn mx hl hm hi hs ha hn ht
    show Change _ _ _ _ _ _ (Table.get ((c.members.update s.node _).update s.node _) id)
    rw [update_update _ _ _ _ (by intro m hm; exact hm), Table.get_update _ _ _ _ (by intro m hm; exact hm)]
    split
    · rename_i e
      subst e
      rw [hm]
      exact .suspected s now m mn mx rfl hn hl hi ha hs ht
    · exact .same _ _

theorem processDead_change {c : Core I A} (hl : c.lifecycle ≠ .leaving) (d : BadState I) (now : Nat) (id : I) :
    Change cfg env c id (.dead d now) (c.members.get id) ((c.processDead cfg env d now).members.get id) := by
  apply processDead_cases cfg env c d now
    (fun c' => Change cfg env c id (.dead d now) (c.members.get id) (c'.members.get id))
  · exact .same _ _
  · intro m hm hi hn _ _
    by_cases hr : c.lifecycle = .running
    · rw [get_refute hr (by rw [← hn]; exact hm)]
      split
      · rename_i e
        rw [e, ← hn, hm]
        exact .refuted _ m _ hn hr (.dead d now rfl) hi
      · exact .same _ _
    · have : c.refute cfg env d.incarnation = c := by unfold Core.refute; rw [if_pos hr]
      rw [this]; exact .same _ _
  · intro m _ _ _ _ _ hl'; exact absurd hl' hl
  · intro m hm hi h1 h2 hn hr
    rw [get_killed hm]
    split
    · rename_i e
      subst e
      rw [hm]
      exact .killed d now m rfl hn hr hi h1 h2
    · exact .same _ _

theorem processAlive_change {c : Core I A} (h : Inv cfg c) (a : Alive I A) (ok : Bool) (off now : Nat) (id : I) :
    Change cfg env c id (.alive a ok off now) (c.members.get id)
      ((c.processAlive cfg env a ok off now).members.get id) := by
  apply processAlive_cases cfg env c a ok off now
    (fun c' => Change cfg env c id (.alive a ok off now) (c.members.get id) (c'.members.get id))
  · exact .same _ _
  · intros; exact .same _ _
  · intros; exact .same _ _
  · intro m _ _ hm hn
    show Change _ _ _ _ _ _ (Table.get (c.members.update a.node.id _) id)
    rw [Table.get_update _ _ _ _ (by intro m hm; exact hm)]
    split
    · rename_i e
      subst e
      have := h.local_susp (m := m) (by rw [← hn]; exact hm)
      rw [hm]
      have e2 : ({ m with susp := none } : Member I A) = m := by cases m; simp_all
      simp only [Option.map_some, e2]
      exact .same _ _
    · exact .same _ _
  · intro m hl hok hm hn hi
    have hs := h.local_susp (m := m) (by rw [← hn]; exact hm)
    have e2 : ({ m with susp := none } : Member I A) = m := by cases m; simp_all
    have hm' : (c.clearSuspicion a.node.id).members.get cfg.localId = some m := by
      show Table.get (c.members.update a.node.id _) _ = _
      rw [Table.get_update _ _ _ _ (by intro m hm; exact hm), if_pos hn.symm, ← hn, hm]
      simp only [Option.map_some, e2]
    rw [get_refute (by exact hl) hm']
    split
    · rename_i e
      rw [e, ← hn, hm]
      exact .refuted _ m _ hn hl (.alive a ok off now rfl hok) hi
    · rename_i e
      have : (c.clearSuspicion a.node.id).members.get id = c.members.get id := by
        show Table.get (c.members.update a.node.id _) _ = _
        rw [Table.get_update _ _ _ _ (by intro m hm; exact hm), if_neg (by rw [hn]; exact e)]
      rw [this]; exact .same _ _
  · intro m hl hok hm hn ha hi
    rw [get_adopted hm]
    split
    · rename_i e
      subst e
      rw [hm]
      exact .newer a ok off now m rfl hn hl hok ha hi
    · exact .same _ _
  · intro m hl hok hm hn ha hi
    rw [get_adopted hm]
    split
    · rename_i e
      subst e
      rw [hm]
      exact .reclaimed a ok off now m rfl hn hl hok ha hi
    · exact .same _ _
  · intro hl hok hm hn _
    have hnd : ((placeholder a c.nextGen now :: c.members).map Member.id).Nodup := by
      simp only [List.map_cons, List.nodup_cons]
      exact ⟨Table.get_eq_none.1 hm, h.nodup⟩
    have hp : ∀ id, (c.withPlaceholder a off now).members.get id =
        if a.node.id = id then some (placeholder a c.nextGen now) else c.members.get id := by
      intro id
      show Table.get (c.members.insertAt _ _) id = _
      rw [Table.get_perm hnd (Table.insertAt_perm _ _ _), Table.get_cons]
      rfl
    rw [get_adopted (by rw [hp, if_pos rfl])]
    split
    · rename_i e
      subst e
      rw [hm]
      exact .new a ok off now rfl hn hl hok
    · rename_i e
      rw [hp, if_neg (fun e' => e e'.symm)]
      exact .same _ _
  · obtain ⟨m, hm, _⟩ := h.loc
    rw [hm]; rfl
  · intro m hl hm
    have := (h.local_get hm).state
    rw [hl] at this
    simpa using this
  · exact h.nodup

theorem processDead_other {c : Core I A} (d : BadState I) (now : Nat) {id : I} (hid : id ≠ d.node) :
    (c.processDead cfg env d now).members.get id = c.members.get id := by
  apply processDead_cases cfg env c d now (fun c' => c'.members.get id = c.members.get id) rfl
  · intro m hm hi hn _ _
    by_cases hr : c.lifecycle = .running
    · rw [get_refute hr (by rw [← hn]; exact hm), if_neg (by rw [← hn]; exact hid)]
    · have : c.refute cfg env d.incarnation = c := by unfold Core.refute; rw [if_pos hr]
      rw [this]
  · intro m hm _ _ _ _ _
    have := get_killed (env := env) (st := .left) (now := now) hm id
    rw [if_neg hid] at this
    exact this
  · intro m hm _ _ _ _ _
    rw [get_killed hm, if_neg hid]

theorem mem_expiredIds {c : Core I A} (h : Inv cfg c) {now : Nat} {id : I} :
    id ∈ c.expiredIds now ↔ ∃ m s, c.members.get id = some m ∧ m.susp = some s ∧ s.deadline ≤ now := by
  unfold expiredIds
  simp only [List.mem_map, List.mem_filter]
  constructor
  · rintro ⟨m, ⟨hm, hs⟩, rfl⟩
    cases hsu : m.susp with
    | none => rw [hsu] at hs; cases hs
    | some s =>
      rw [hsu] at hs
      exact ⟨m, s, (Table.get_iff h.nodup).2 ⟨hm, rfl⟩, hsu, by simpa using hs⟩
  · rintro ⟨m, s, hm, hs, hd⟩
    have := (Table.get_iff h.nodup).1 hm
    exact ⟨m, ⟨this.1, by rw [hs]; simpa using hd⟩, this.2⟩

theorem expiredIds_nodup {c : Core I A} (h : Inv cfg c) (now : Nat) : (c.expiredIds now).Nodup :=
  List.Sublist.nodup (List.Sublist.map _ List.filter_sublist) h.nodup

/-- The effect of expiry on one id. -/
theorem fireExpired_get {c : Core I A} (h : Inv cfg c) (hl : c.lifecycle = .running) (now : Nat) (id : I) :
    (c.fireExpiredSuspicions cfg env now).members.get id =
      match c.members.get id with
      | some m => if id ∈ c.expiredIds now then some { m with
          susp := none
          state := .dead
          stateChange := now } else some m
      | none => none := by
  have hex : ∀ i ∈ c.expiredIds now, ∃ m s, c.members.get i = some m ∧ m.susp = some s :=
    fun i hi => by obtain ⟨m, s, h1, h2, _⟩ := (mem_expiredIds h).1 hi; exact ⟨m, s, h1, h2⟩
  have hnd := expiredIds_nodup h now
  unfold fireExpiredSuspicions
  generalize c.expiredIds now = ids at *
  induction ids generalizing c with
  | nil => cases hg : c.members.get id <;> simp [hg]
  | cons i ids ih =>
    simp only [List.foldl_cons]
    obtain ⟨m, s, hm, hs⟩ := hex i (List.mem_cons_self ..)
    have hmo := h.mem _ _ hm
    have hst : m.state = .suspect := hmo.susp.1 (by rw [hs]; rfl)
    have hne : i ≠ cfg.localId := by
      intro e
      have := h.local_susp (m := m) (by rw [← e]; exact hm)
      rw [hs] at this; cases this
    have hcfg : ∀ id, (expireOne cfg env now c i).members.get id = if id = i then some { m with
          susp := none
          state := .dead
          stateChange := now } else c.members.get id := by
      intro id
      unfold expireOne
      simp only [hm]
      unfold processDead
      simp only [hm]
      rw [if_neg (by omega), if_neg (by rw [hst]; simp), if_neg hne, if_neg (by simp [hl]), if_neg hne]
      exact get_killed (env := env) (d := { incarnation := m.incarnation, node := i, src := cfg.localId }) hm id
    have hinv : Inv cfg (expireOne cfg env now c i) :=
      h.processDead env _ now (fun e => by rw [hl] at e; cases e)
    have hlf : (expireOne cfg env now c i).lifecycle = .running :=
      (processDead_lifecycle _ _ _ (by rw [hl]; simp)).trans hl
    have hnd' := List.nodup_cons.1 hnd
    rw [ih hinv hlf ?_ hnd'.2]
    · rw [hcfg]
      by_cases e : id = i
      · subst e
        rw [if_pos rfl, hm]
        simp [hnd'.1]
      · rw [if_neg e]
        simp only [List.mem_cons, e, false_or]
    · intro j hj
      have : j ≠ i := fun e => hnd'.1 (e ▸ hj)
      rw [hcfg, if_neg this]
      exact hex j (List.mem_cons_of_mem _ hj)

theorem resetNodes_get {c : Core I A} (h : Inv cfg c) (pick : Nat → Nat) (now : Nat) (id : I) :
    (c.resetNodes cfg pick now).members.get id =
      match c.members.get id with
      | some m => if reapable cfg m now then none else some m
      | none => none := by
  unfold Core.resetNodes
  dsimp only
  have hmem : ∀ id, id ∈ (c.members.filter (fun m => reapable cfg m now)).map Member.id ↔
      ∃ m, c.members.get id = some m ∧ reapable cfg m now = true := by
    intro id
    simp only [List.mem_map, List.mem_filter]
    constructor
    · rintro ⟨m, ⟨hm, hr⟩, rfl⟩; exact ⟨m, (Table.get_iff h.nodup).2 ⟨hm, rfl⟩, hr⟩
    · rintro ⟨m, hm, hr⟩; have := (Table.get_iff h.nodup).1 hm; exact ⟨m, ⟨this.1, hr⟩, this.2⟩
  generalize (c.members.filter (fun m => reapable cfg m now)).map Member.id = ids at *
  have hmm : (if ids.isEmpty then c else c.bump).members = c.members := by split <;> rfl
  generalize (if ids.isEmpty then c else c.bump) = c1 at *
  have hfold : ∀ (ids : List I) (c1 : Core I A), (ids.foldl
      (fun c id => { c with suspIdx := c.suspIdx.set id none, members := c.members.remove id }) c1).members.get id
        = if id ∈ ids then none else c1.members.get id := by
    intro ids
    induction ids with
    | nil => intro c1; simp
    | cons i ids ih =>
      intro c1
      rw [List.foldl_cons, ih]
      show (if id ∈ ids then none else (c1.members.remove i).get id) = _
      rw [Table.get_remove]
      by_cases e : id = i
      · simp [e]
      · simp [e]
  have hnd : ∀ (ids : List I) (c1 : Core I A), (c1.members.map Member.id).Nodup → ((ids.foldl
      (fun c id => { c with suspIdx := c.suspIdx.set id none, members := c.members.remove id }) c1).members.map
        Member.id).Nodup := by
    intro ids
    induction ids with
    | nil => intro c1 h; exact h
    | cons i ids ih =>
      intro c1 h
      rw [List.foldl_cons]
      exact ih _ (Table.nodup_remove h i)
  rw [Table.get_perm (hnd ids c1 (by rw [hmm]; exact h.nodup)) (Table.shuffle_perm _ _), hfold, hmm]
  cases hg : c.members.get id with
  | none =>
    have : id ∉ ids := by rw [hmem, hg]; simp
    simp [this]
  | some m =>
    by_cases hr : reapable cfg m now = true
    · have : id ∈ ids := by rw [hmem]; exact ⟨m, hg, hr⟩
      simp [this, hr]
    · have : id ∉ ids := by rw [hmem, hg]; simpa using hr
      simp [this, hr]

/-- The classification. -/
theorem act_change {c : Core I A} (h : Good cfg c) (x : Act I A) (id : I) :
    Change cfg env c id x (c.members.get id) ((act cfg env c x).members.get id) := by
  have hi := h.inv
  cases x with
  | alive a ok off now => exact processAlive_change hi a ok off now id
  | suspect s now => exact processSuspect_change hi s now id
  | dead d now => exact processDead_change h.settled d now id
  | expire now =>
    simp only [act]
    split
    · rename_i hl
      rw [fireExpired_get hi hl]
      cases hg : c.members.get id with
      | none => exact .same _ _
      | some m =>
        dsimp only
        split
        · rename_i he
          obtain ⟨m', s, hm', hs, hd⟩ := (mem_expiredIds hi).1 he
          rw [hg] at hm'; cases hm'
          refine .expired now m s ?_ hl hs hd
          intro e
          have := hi.local_susp (m := m) (by rw [← e]; exact hg)
          rw [hs] at this; cases this
        · exact .same _ _
    · exact .same _ _
  | reset pick now =>
    simp only [act]
    rw [resetNodes_get hi]
    cases hg : c.members.get id with
    | none => exact .same _ _
    | some m =>
      dsimp only
      split
      · rename_i hr; exact .reaped pick now m hr
      · exact .same _ _
  | updateMeta md =>
    simp only [act]
    split
    · rename_i hl
      show Change _ _ _ _ _ _ (Table.get (c.members.update cfg.localId _) id)
      rw [Table.get_update _ _ _ _ (by intro m _; rfl)]
      split
      · rename_i e
        obtain ⟨m, hm, _⟩ := hi.loc
        rw [e, hm]
        exact .metadata md m rfl hl
      · exact .same _ _
    · exact .same _ _
  | push ev => simp only [act]; split <;> exact .same _ _
  | leave now =>
    simp only [act]
    split
    · rename_i hl
      obtain ⟨m, hm, hlo⟩ := hi.loc
      have hst : m.state = .alive := by have := hlo.state; rw [hl] at this; simpa using this
      rw [beginLeave_eq env hm hlo.inc hst]
      have := get_killed (c := { c with
        lifecycle := .leaving
        events := c.events.filter (fun e => !e.isDial) }) (env := env)
        (d := { incarnation := c.incarnation, node := cfg.localId, src := cfg.localId }) (st := .left) (now := now) hm id
      dsimp only at this ⊢
      rw [this]
      split
      · rename_i e
        rw [e, hm]
        exact .left now m rfl hl
      · exact .same _ _
    · exact .same _ _
  | _ => exact .same _ _

end Verif.Core
