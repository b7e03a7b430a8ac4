import Verif.Proof.CoreCases
import Verif.Proof.Deadline
/-
The invariant of the membership core and its preservation by every function of the core.
-/
namespace Verif.Core
open Verif
variable {I A : Type} [DecidableEq I] [DecidableEq A]
variable (cfg : Cfg I A) (env : Env I A)

omit [DecidableEq I] [DecidableEq A] in
/-- What holds of every record. -/
structure MemOk (g : Nat) (m : Member I A) : Prop where
  susp : m.susp.isSome = true ↔ m.state = .suspect
  known : m.state = .alive ∨ m.state = .suspect ∨ m.state = .dead ∨ m.state = .left
  gpos : 0 < m.gen
  gen : m.gen < g

omit [DecidableEq I] [DecidableEq A] in
/-- What holds of the local record. -/
structure LocalOk (cfg : Cfg I A) (inc : Nat) (lc : Lifecycle) (m : Member I A) : Prop where
  inc : m.incarnation = inc
  addr : m.server.addr = cfg.advertise
  state : m.state = if lc = .left then .left else .alive

/-- The invariant, as a predicate on the fields it concerns. -/
structure Inv' (t : Table I A) (g : Nat) (idx : DeadlineIndex I) (inc : Nat) (lc : Lifecycle) : Prop where
  nodup : (t.map Member.id).Nodup
  loc : ∃ m, t.get cfg.localId = some m ∧ LocalOk cfg inc lc m
  mem : ∀ id m, t.get id = some m → MemOk g m
  genInj : ∀ id id' m m', t.get id = some m → t.get id' = some m' → m.gen = m'.gen → id = id'
  idxInv : idx.Inv
  dl : ∀ id, idx.deadlineOf id = (t.get id).bind (fun m => m.susp.map Suspicion.deadline)
  cap : ∀ mx, cfg.maxMembers = some mx → t.length ≤ Nat.max mx 1

/-- The invariant of the core. -/
abbrev Inv (c : Core I A) : Prop := Inv' cfg c.members c.nextGen c.suspIdx c.incarnation c.lifecycle

variable {cfg}

omit [DecidableEq A] in
theorem Inv'.update {t : Table I A} {g g' : Nat} {idx idx' : DeadlineIndex I} {inc inc' : Nat}
    {lc lc' : Lifecycle} (h : Inv' cfg t g idx inc lc) {id : I} {m : Member I A} {f : Member I A → Member I A}
    (hf : ∀ m, m.id = id → (f m).id = id)
    (hg : t.get id = some m) (hm : MemOk g' (f m)) (hgg : g ≤ g')
    (hgen : (f m).gen = m.gen ∨ g ≤ (f m).gen)
    (hidx : idx'.Inv)
    (hdl : ∀ id', idx'.deadlineOf id' = if id' = id then (f m).susp.map Suspicion.deadline else idx.deadlineOf id')
    (hloc : id = cfg.localId → LocalOk cfg inc' lc' (f m))
    (hother : id ≠ cfg.localId → inc' = inc ∧ lc' = lc) :
    Inv' cfg (t.update id f) g' idx' inc' lc' := by
  have hget : ∀ id', (t.update id f).get id' = if id' = id then some (f m) else t.get id' := by
    intro id'
    rw [Table.get_update t id id' f hf]
    by_cases e : id' = id
    · subst e; simp [hg]
    · simp [e]
  refine ⟨?_, ?_, ?_, ?_, hidx, ?_, ?_⟩
  · rw [Table.ids_update t id f hf]; exact h.nodup
  · obtain ⟨l, hl, hlo⟩ := h.loc
    by_cases e : id = cfg.localId
    · exact ⟨f m, by rw [hget, if_pos e.symm], hloc e⟩
    · obtain ⟨rfl, rfl⟩ := hother e
      exact ⟨l, by rw [hget, if_neg (fun e' => e e'.symm)]; exact hl, hlo⟩
  · intro id' m' hm'
    rw [hget] at hm'
    by_cases e : id' = id
    · rw [if_pos e] at hm'; cases hm'; exact hm
    · rw [if_neg e] at hm'
      have := h.mem id' m' hm'
      exact ⟨this.susp, this.known, this.gpos, Nat.lt_of_lt_of_le this.gen hgg⟩
  · intro i j mi mj hi hj he
    rw [hget] at hi hj
    by_cases ei : i = id
    · by_cases ej : j = id
      · rw [ei, ej]
      · rw [if_pos ei] at hi; rw [if_neg ej] at hj; cases hi
        exfalso
        rcases hgen with e | e
        · exact ej (h.genInj _ _ _ _ hj hg (by omega))
        · have := (h.mem _ _ hj).gen; omega
    · by_cases ej : j = id
      · rw [if_neg ei] at hi; rw [if_pos ej] at hj; cases hj
        exfalso
        rcases hgen with e | e
        · exact ei (h.genInj _ _ _ _ hi hg (by omega))
        · have := (h.mem _ _ hi).gen; omega
      · rw [if_neg ei] at hi; rw [if_neg ej] at hj
        exact h.genInj _ _ _ _ hi hj he
  · intro id'
    rw [hdl, hget]
    by_cases e : id' = id
    · rw [if_pos e, if_pos e]; rfl
    · rw [if_neg e, if_neg e]; exact h.dl id'
  · intro mx hmx; rw [Table.length_update]; exact h.cap mx hmx

omit [DecidableEq A] in
theorem Inv'.insert {t t' : Table I A} {g : Nat} {idx : DeadlineIndex I} {inc : Nat} {lc : Lifecycle}
    (h : Inv' cfg t g idx inc lc) {m : Member I A} (hp : t'.Perm (m :: t)) (hg : t.get m.id = none)
    (hm : MemOk (g + 1) m) (hgen : m.gen = g) (hs : m.susp = none)
    (hcap : ∀ mx, cfg.maxMembers = some mx → t.length < mx) :
    Inv' cfg t' (g + 1) idx inc lc := by
  have hnd : ((m :: t).map Member.id).Nodup := by
    simp only [List.map_cons, List.nodup_cons]
    exact ⟨Table.get_eq_none.1 hg, h.nodup⟩
  have hget : ∀ id', t'.get id' = if id' = m.id then some m else t.get id' := by
    intro id'
    rw [Table.get_perm hnd hp, Table.get_cons]
    by_cases e : id' = m.id
    · rw [if_pos e, if_pos e.symm]
    · rw [if_neg e, if_neg (fun e' => e e'.symm)]
  refine ⟨(hp.map _).nodup_iff.2 hnd, ?_, ?_, ?_, h.idxInv, ?_, ?_⟩
  · obtain ⟨l, hl, hlo⟩ := h.loc
    refine ⟨l, ?_, hlo⟩
    rw [hget, if_neg]
    · exact hl
    · intro e; rw [e] at hl; rw [hl] at hg; cases hg
  · intro id' m' hm'
    rw [hget] at hm'
    by_cases e : id' = m.id
    · rw [if_pos e] at hm'; cases hm'; exact hm
    · rw [if_neg e] at hm'
      have := h.mem id' m' hm'
      exact ⟨this.susp, this.known, this.gpos, by have := this.gen; omega⟩
  · intro i j mi mj hi hj he
    rw [hget] at hi hj
    by_cases ei : i = m.id
    · by_cases ej : j = m.id
      · rw [ei, ej]
      · rw [if_pos ei] at hi; rw [if_neg ej] at hj; cases hi
        have := (h.mem _ _ hj).gen; omega
    · by_cases ej : j = m.id
      · rw [if_neg ei] at hi; rw [if_pos ej] at hj; cases hj
        have := (h.mem _ _ hi).gen; omega
      · rw [if_neg ei] at hi; rw [if_neg ej] at hj
        exact h.genInj _ _ _ _ hi hj he
  · intro id'
    rw [h.dl, hget]
    by_cases e : id' = m.id
    · rw [if_pos e, e, hg]; simp [hs]
    · rw [if_neg e]
  · intro mx hmx
    have := hcap mx hmx
    have hl := hp.length_eq
    simp only [List.length_cons] at hl
    have := Nat.le_max_left mx 1
    have h1 : t'.length ≤ mx := by omega
    exact Nat.le_trans h1 this

omit [DecidableEq A] in
theorem Inv'.perm {t t' : Table I A} {g : Nat} {idx : DeadlineIndex I} {inc : Nat} {lc : Lifecycle}
    (h : Inv' cfg t g idx inc lc) (hp : t'.Perm t) : Inv' cfg t' g idx inc lc := by
  have hget := Table.get_perm h.nodup hp
  refine ⟨(hp.map _).nodup_iff.2 h.nodup, ?_, ?_, ?_, h.idxInv, ?_, ?_⟩
  · obtain ⟨l, hl, hlo⟩ := h.loc
    exact ⟨l, by rw [hget]; exact hl, hlo⟩
  · intro id m hm; rw [hget] at hm; exact h.mem id m hm
  · intro i j mi mj hi hj; rw [hget] at hi hj; exact h.genInj _ _ _ _ hi hj
  · intro id; rw [hget]; exact h.dl id
  · intro mx hmx; rw [hp.length_eq]; exact h.cap mx hmx

omit [DecidableEq A] in
theorem Inv'.remove {t : Table I A} {g : Nat} {idx : DeadlineIndex I} {inc : Nat} {lc : Lifecycle}
    (h : Inv' cfg t g idx inc lc) {id : I} (hid : id ≠ cfg.localId) :
    Inv' cfg (t.remove id) g (idx.set id none) inc lc := by
  have hget : ∀ id', (t.remove id).get id' = if id' = id then none else t.get id' :=
    Table.get_remove t id
  refine ⟨Table.nodup_remove h.nodup id, ?_, ?_, ?_, DeadlineIndex.inv_set h.idxInv _ _, ?_, ?_⟩
  · obtain ⟨l, hl, hlo⟩ := h.loc
    exact ⟨l, by rw [hget, if_neg (fun e => hid e.symm)]; exact hl, hlo⟩
  · intro id' m hm
    rw [hget] at hm
    split at hm
    · cases hm
    · exact h.mem id' m hm
  · intro i j mi mj hi hj
    rw [hget] at hi hj
    split at hi
    · cases hi
    · split at hj
      · cases hj
      · exact h.genInj _ _ _ _ hi hj
  · intro id'
    rw [DeadlineIndex.deadlineOf_set, hget]
    by_cases e : id = id'
    · rw [if_pos e, if_pos e.symm]; rfl
    · rw [if_neg e, if_neg (fun e' => e e'.symm)]; exact h.dl id'
  · intro mx hmx
    have := Table.length_remove_le t id
    have := h.cap mx hmx
    omega

omit [DecidableEq A] in
theorem Inv.local_susp {c : Core I A} (h : Inv cfg c) {m : Member I A}
    (hm : c.members.get cfg.localId = some m) : m.susp = none := by
  obtain ⟨l, hl, hlo⟩ := h.loc
  rw [hl] at hm; cases hm
  have := (h.mem _ _ hl).susp
  cases hs : m.susp with
  | none => rfl
  | some s =>
    rw [hs] at this
    have h2 := this.1 rfl
    rw [hlo.state] at h2
    split at h2 <;> cases h2

omit [DecidableEq A] in
theorem Inv.local_get {c : Core I A} (h : Inv cfg c) {m : Member I A}
    (hm : c.members.get cfg.localId = some m) : LocalOk cfg c.incarnation c.lifecycle m := by
  obtain ⟨l, hl, hlo⟩ := h.loc
  rw [hl] at hm; cases hm; exact hlo

/-- The incarnation chosen by a refutation. -/
def refuteInc (inc acc : Nat) : Nat :=
  if (inc + 1) % 2 ^ 32 ≤ acc then (acc + 1) % 2 ^ 32 else (inc + 1) % 2 ^ 32

omit [DecidableEq A] in
theorem refute_running {c : Core I A} {m : Member I A} (hl : c.lifecycle = .running)
    (hm : c.members.get cfg.localId = some m) (acc : Nat) :
    c.refute cfg env acc = broadcast env { c with
      incarnation := refuteInc c.incarnation acc
      awareness := c.awareness.recordFailure 1
      snapVer := c.snapVer + 1
      members := c.members.update cfg.localId
        (fun m => { m with incarnation := refuteInc c.incarnation acc }) }
      m.server.id (.alive (aliveOf m.server (refuteInc c.incarnation acc))) := by
  unfold Core.refute
  rw [if_neg (by simp [hl])]
  dsimp only
  unfold skipIncarnationPast nextIncarnation bump refuteInc
  dsimp only
  by_cases h : (c.incarnation + 1) % 2 ^ 32 ≤ acc
  · simp only [ge_iff_le, h, if_true, hm]
  · simp only [ge_iff_le, h, if_false, hm]

omit [DecidableEq A] in
theorem Inv.refute {c : Core I A} (h : Inv cfg c) (acc : Nat) : Inv cfg (c.refute cfg env acc) := by
  by_cases hl : c.lifecycle = .running
  · obtain ⟨m, hm, hlo⟩ := h.loc
    rw [refute_running env hl hm]
    have hmo := h.mem _ _ hm
    refine Inv'.update h (by intro m hm; exact hm) hm ⟨hmo.susp, hmo.known, hmo.gpos, hmo.gen⟩ (Nat.le_refl _)
      (.inl rfl) h.idxInv ?_ (fun _ => ⟨rfl, hlo.addr, hlo.state⟩) (fun e => absurd rfl e)
    intro id'
    split
    · rename_i e; dsimp only [broadcast]; rw [e, h.dl, hm]; rfl
    · rfl
  · unfold Core.refute
    rw [if_pos hl]; exact h

omit [DecidableEq A] in
theorem Inv.clearSuspicion' {c : Core I A} (h : Inv cfg c) (id : I) :
    ∀ id', ((c.clearSuspicion id).suspIdx.deadlineOf id') = if id' = id then none else c.suspIdx.deadlineOf id' := by
  intro id'
  unfold Core.clearSuspicion
  dsimp only
  rw [DeadlineIndex.deadlineOf_set]
  by_cases e : id = id'
  · rw [if_pos e, if_pos e.symm]
  · rw [if_neg e, if_neg (fun e' => e e'.symm)]

omit [DecidableEq A] in
theorem update_update (t : Table I A) (id : I) (f g : Member I A → Member I A)
    (hf : ∀ m, m.id = id → (f m).id = id) : (t.update id f).update id g = t.update id (g ∘ f) := by
  simp only [Table.update, List.map_map]
  apply List.map_congr_left
  intro m _
  simp only [Function.comp]
  by_cases e : m.id = id
  · rw [if_pos e, if_pos (hf m e), if_pos e]
  · rw [if_neg e, if_neg e, if_neg e]

omit [DecidableEq A] in
theorem Inv.clearLocal {c : Core I A} (h : Inv cfg c) {id : I} (hid : id = cfg.localId) :
    Inv cfg (c.clearSuspicion id) := by
  subst hid
  obtain ⟨m, hm, hlo⟩ := h.loc
  have hmo := h.mem _ _ hm
  have hs := h.local_susp hm
  refine Inv'.update h (by intro m hm; exact hm) hm ⟨?_, hmo.known, hmo.gpos, hmo.gen⟩ (Nat.le_refl _)
    (.inl rfl) (DeadlineIndex.inv_set h.idxInv cfg.localId none) (h.clearSuspicion' _)
    (fun _ => ⟨hlo.inc, hlo.addr, hlo.state⟩) (fun e => absurd rfl e)
  have := hmo.susp
  rw [hs] at this
  exact this

omit [DecidableEq A] in
theorem Inv.processSuspect {c : Core I A} (h : Inv cfg c) (s : BadState I) (now : Nat) :
    Inv cfg (c.processSuspect cfg env s now) := by
  apply processSuspect_cases cfg env c s now (Inv cfg) h
  · intro m susp susp' d hl hg hi hs hc
    have hmo := h.mem _ _ hg
    have hne : s.node ≠ cfg.localId := fun e => by
      have := h.local_susp (e ▸ hg); rw [this] at hs; cases hs
    have hd : susp'.deadline = d := by
      unfold Suspicion.confirm at hc
      split at hc
      · cases hc
      · split at hc
        · cases hc
        · cases hc; rfl
    refine Inv'.update h (by intro m hm; exact hm) hg ⟨?_, hmo.known, hmo.gpos, hmo.gen⟩ (Nat.le_refl _)
      (.inl rfl) (DeadlineIndex.inv_set h.idxInv s.node (some d)) ?_ (fun e => absurd e hne) (fun _ => ⟨rfl, rfl⟩)
    · have := hmo.susp; rw [hs] at this; exact this
    · intro id'
      dsimp only [broadcast, bump]
      rw [DeadlineIndex.deadlineOf_set]
      by_cases e : s.node = id'
      · rw [if_pos e, if_pos e.symm]; simp [hd]
      · rw [if_neg e, if_neg (fun e' => e e'.symm)]
  · intro m hl hg hi ha hn; exact h.refute env _
  · intro m mn mx hl hg hi hs ha hn ht
    have hmo := h.mem _ _ hg
    rw [update_update _ _ _ _ (by intro m hm; exact hm)]
    refine Inv'.update h (by intro m hm; exact hm) hg ⟨?_, ?_, hmo.gpos, hmo.gen⟩ (Nat.le_refl _)
      (.inl rfl) (DeadlineIndex.inv_set h.idxInv s.node (some _)) ?_ (fun e => absurd e hn) (fun _ => ⟨rfl, rfl⟩)
    · exact ⟨fun _ => rfl, fun _ => rfl⟩
    · exact .inr (.inl rfl)
    · intro id'
      dsimp only [broadcast, bump]
      rw [DeadlineIndex.deadlineOf_set]
      by_cases e : s.node = id'
      · rw [if_pos e, if_pos e.symm]; rfl
      · rw [if_neg e, if_neg (fun e' => e e'.symm)]

omit [DecidableEq A] in
theorem Inv.killed {c : Core I A} (h : Inv cfg c) (d : BadState I) {m : Member I A} {st : NState} (now : Nat)
    (hg : c.members.get d.node = some m) (hst : st = .dead ∨ st = .left) (hn : d.node ≠ cfg.localId) :
    Inv cfg (c.killed env d m st now) := by
  have hmo := h.mem _ _ hg
  have := Inv'.update (g' := c.nextGen) (inc' := c.incarnation) (lc' := c.lifecycle) h
    (f := (fun m : Member I A => Member.setState { m with incarnation := d.incarnation } st now) ∘ (fun m : Member I A => { m with susp := none }))
    (by intro m hm; exact hm) hg ⟨?_, ?_, hmo.gpos, hmo.gen⟩ (Nat.le_refl _)
    (.inl rfl) (DeadlineIndex.inv_set h.idxInv d.node none) (h.clearSuspicion' _) (fun e => absurd e hn)
    (fun _ => ⟨rfl, rfl⟩)
  · rw [← update_update _ _ _ _ (by intro m hm; exact hm)] at this
    exact this
  · simp only [Function.comp, Member.setState]
    rcases hst with rfl | rfl <;> simp
  · exact .inr (.inr hst)

omit [DecidableEq A] in
theorem Inv.killedLocal {c : Core I A} (h : Inv cfg c) (d : BadState I) {m : Member I A} (now : Nat)
    (hg : c.members.get d.node = some m) (hn : d.node = cfg.localId) (hi : d.incarnation = c.incarnation) :
    Inv cfg { c.killed env d m .left now with lifecycle := .left } := by
  have hmo := h.mem _ _ hg
  have hlo := h.local_get (hn ▸ hg)
  have := Inv'.update (g' := c.nextGen) (inc' := c.incarnation) (lc' := .left) h
    (f := (fun m : Member I A => Member.setState { m with incarnation := d.incarnation } .left now) ∘ (fun m : Member I A => { m with susp := none }))
    (by intro m hm; exact hm) hg ⟨?_, ?_, hmo.gpos, hmo.gen⟩ (Nat.le_refl _)
    (.inl rfl) (DeadlineIndex.inv_set h.idxInv d.node none) (h.clearSuspicion' _) (fun _ => ⟨hi, hlo.addr, rfl⟩)
    (fun e => absurd hn e)
  · rw [← update_update _ _ _ _ (by intro m hm; exact hm)] at this
    exact this
  · simp [Function.comp, Member.setState]
  · exact .inr (.inr (.inr rfl))

/-- `process_dead` keeps the invariant; a claim about the local node while leaving must carry the local
incarnation, as the only such claim does. -/
theorem Inv.processDead {c : Core I A} (h : Inv cfg c) (d : BadState I) (now : Nat)
    (hleave : c.lifecycle = .leaving → d.node = cfg.localId → d.incarnation = c.incarnation) :
    Inv cfg (c.processDead cfg env d now) := by
  apply processDead_cases cfg env c d now (Inv cfg) h
  · intro m hg hi hn hl hs; exact h.refute env _
  · intro m hg hi h1 h2 hn hl; exact h.killedLocal env d now hg hn (hleave hl hn)
  · intro m hg hi h1 h2 hn hl
    exact h.killed env d now hg (by split <;> simp) hn

theorem Inv.adopted {c : Core I A} (h : Inv cfg c) (a : Alive I A) (upd : Bool) {m : Member I A} (now : Nat)
    (hg : c.members.get a.node.id = some m) (hn : a.node.id ≠ cfg.localId) :
    Inv cfg (c.adopted env a upd m now) := by
  have hmo := h.mem _ _ hg
  have key : ∀ (c' : Core I A), c'.members = (c.clearSuspicion a.node.id).members.update a.node.id
      (adoptAlive a (if upd then some c.nextGen else none) now) →
      c'.nextGen = (if upd then c.nextGen + 1 else c.nextGen) →
      c'.suspIdx = (c.clearSuspicion a.node.id).suspIdx → c'.incarnation = c.incarnation →
      c'.lifecycle = c.lifecycle → Inv cfg c' := by
    intro c' h1 h2 h3 h4 h5
    unfold Inv
    rw [h1, h2, h3, h4, h5]
    have hid : ∀ m : Member I A, m.id = a.node.id →
        (adoptAlive a (if upd then some c.nextGen else none) now m).id = a.node.id := by
      intro m hm; unfold adoptAlive; dsimp only; split <;> rfl
    have := Inv'.update (g' := if upd then c.nextGen + 1 else c.nextGen) (inc' := c.incarnation)
      (lc' := c.lifecycle) h (id := a.node.id) (m := m)
      (f := adoptAlive a (if upd then some c.nextGen else none) now ∘ (fun m : Member I A => { m with susp := none }))
      (fun m hm => hid _ hm) hg ?_ (by split <;> omega)
      ?_ (DeadlineIndex.inv_set h.idxInv a.node.id none) ?_ (fun e => absurd e hn)
      (fun _ => ⟨rfl, rfl⟩)
    · rw [← update_update _ _ _ _ (by intro m hm; exact hm)] at this
      exact this
    · have hst : (adoptAlive a (if upd then some c.nextGen else none) now { m with susp := none }).state = .alive := by
        unfold adoptAlive; dsimp only; split
        · rfl
        · rename_i hx; exact Decidable.not_not.1 hx
      refine ⟨?_, .inl hst, ?_, ?_⟩
      · simp only [Function.comp]
        rw [hst]
        unfold adoptAlive; dsimp only; split <;> simp [Member.setState]
      · have e : (adoptAlive a (if upd then some c.nextGen else none) now { m with susp := none }).gen =
            (if upd then c.nextGen else m.gen) := by
          unfold adoptAlive; dsimp only; cases upd <;> simp <;> split <;> rfl
        simp only [Function.comp]
        rw [e]
        have := hmo.gpos
        have := hmo.gen
        split <;> omega
      · have e : (adoptAlive a (if upd then some c.nextGen else none) now { m with susp := none }).gen =
            (if upd then c.nextGen else m.gen) := by
          unfold adoptAlive; dsimp only; cases upd <;> simp <;> split <;> rfl
        simp only [Function.comp]
        rw [e]
        have := hmo.gen
        split <;> omega
    · have e : (adoptAlive a (if upd then some c.nextGen else none) now { m with susp := none }).gen =
          (if upd then c.nextGen else m.gen) := by
        unfold adoptAlive; dsimp only; cases upd <;> simp <;> split <;> rfl
      simp only [Function.comp]
      rw [e]
      cases upd <;> simp
    · intro id'
      refine Eq.trans (h.clearSuspicion' a.node.id id') ?_
      simp only [Function.comp]
      have e : (adoptAlive a (if upd then some c.nextGen else none) now { m with susp := none }).susp = none := by
        unfold adoptAlive; dsimp only; split <;> rfl
      rw [e]; rfl
  unfold Core.adopted
  dsimp only
  split
  · exact key _ rfl rfl rfl rfl rfl
  · exact key _ rfl rfl rfl rfl rfl

theorem Inv.processAlive {c : Core I A} (h : Inv cfg c) (a : Alive I A) (ok : Bool) (offset now : Nat) :
    Inv cfg (c.processAlive cfg env a ok offset now) := by
  apply processAlive_cases cfg env c a ok offset now (Inv cfg) h
  · intros; exact h
  · intros; exact h
  · intro m _ _ _ hn; exact h.clearLocal hn
  · intro m _ _ _ hn _; exact (h.clearLocal hn).refute env _
  · intro m _ _ hg hn _ _; exact h.adopted env a false now hg hn
  · intro m _ _ hg hn _ _; exact h.adopted env a true now hg hn
  · intro hl _ hg hn hcap
    have hp := Table.insertAt_perm c.members (placeholder a c.nextGen now) (offset % (c.members.length + 1))
    have h0 := h.mem
    have hpos : 0 < c.nextGen := by
      obtain ⟨m, hm, _⟩ := h.loc
      have := (h.mem _ _ hm).gen
      omega
    have hi : Inv cfg (c.withPlaceholder a offset now) :=
      Inv'.insert h hp hg ⟨by simp [placeholder], .inr (.inr (.inl rfl)), hpos, Nat.lt_succ_self _⟩ rfl rfl hcap
    refine hi.adopted env a false now ?_ hn
    have hnd : ((placeholder a c.nextGen now :: c.members).map Member.id).Nodup := by
      simp only [List.map_cons, List.nodup_cons]
      exact ⟨Table.get_eq_none.1 hg, h.nodup⟩
    unfold withPlaceholder
    dsimp only
    rw [Table.get_perm hnd hp, Table.get_cons, if_pos (by rfl)]
  · obtain ⟨m, hm, _⟩ := h.loc
    rw [hm]; rfl
  · intro m hl hm
    have := (h.local_get hm).state
    rw [hl] at this
    simpa using this
  · exact h.nodup

omit [DecidableEq A] in
theorem refute_lifecycle (c : Core I A) (acc : Nat) : (c.refute cfg env acc).lifecycle = c.lifecycle := by
  unfold Core.refute
  split
  · rfl
  · dsimp only [bump, nextIncarnation, skipIncarnationPast]
    split <;> split <;> first | rfl | (split <;> rfl)

theorem Inv.fireExpired {c : Core I A} (h : Inv cfg c) (now : Nat) (hl : c.lifecycle ≠ .leaving) :
    Inv cfg (c.fireExpiredSuspicions cfg env now) := by
  unfold fireExpiredSuspicions
  generalize c.expiredIds now = ids
  induction ids generalizing c with
  | nil => exact h
  | cons id ids ih =>
    simp only [List.foldl_cons]
    apply ih
    · exact h.processDead env _ now (fun e => absurd e hl)
    · apply processDead_cases cfg env c _ now (fun c => c.lifecycle ≠ .leaving) hl
      · intro m _ _ _ _ _; rw [refute_lifecycle]; exact hl
      · intros; simp
      · intros; exact hl

omit [DecidableEq A] in
theorem Inv.resetNodes {c : Core I A} (h : Inv cfg c) (pick : Nat → Nat) (now : Nat) :
    Inv cfg (c.resetNodes cfg pick now) := by
  unfold Core.resetNodes
  dsimp only
  have hne : ∀ id ∈ (c.members.filter (fun m => reapable cfg m now)).map Member.id, id ≠ cfg.localId := by
    intro id hid
    simp only [List.mem_map, List.mem_filter, reapable, Bool.and_eq_true, decide_eq_true_eq] at hid
    obtain ⟨m, ⟨_, ⟨h1, _⟩, _⟩, rfl⟩ := hid
    exact h1
  generalize (c.members.filter (fun m => reapable cfg m now)).map Member.id = ids at *
  have h0 : Inv cfg (if ids.isEmpty then c else c.bump) := by split <;> exact h
  generalize (if ids.isEmpty then c else c.bump) = c at *
  have : Inv cfg (ids.foldl
    (fun c id => { c with suspIdx := c.suspIdx.set id none, members := c.members.remove id }) c) := by
    clear h
    induction ids generalizing c with
    | nil => exact h0
    | cons id ids ih =>
      simp only [List.foldl_cons]
      apply ih
      · intro i hi; exact hne i (List.mem_cons_of_mem _ hi)
      · exact Inv'.remove h0 (hne id (List.mem_cons_self ..))
  exact Inv'.perm this (Table.shuffle_perm _ _)

omit [DecidableEq A] in
theorem Inv.updateMeta {c : Core I A} (h : Inv cfg c) (hl : c.lifecycle = .running) (md : Bytes) :
    Inv cfg (c.updateMeta cfg env md) := by
  obtain ⟨m, hm, hlo⟩ := h.loc
  have hmo := h.mem _ _ hm
  refine Inv'.update h (by intro m hm; rfl) hm ⟨hmo.susp, hmo.known, hmo.gpos, hmo.gen⟩ (Nat.le_refl _)
      (.inl rfl) h.idxInv ?_ (fun _ => ⟨rfl, rfl, hlo.state⟩) (fun e => absurd rfl e)
  intro id'
  split
  · rename_i e
    have := h.dl cfg.localId
    rw [hm] at this
    rw [e]; exact this
  · rfl

omit [DecidableEq A] in
theorem beginLeave_eq {c : Core I A} {m : Member I A} (hm : c.members.get cfg.localId = some m)
    (hinc : m.incarnation = c.incarnation) (hst : m.state = .alive) (now : Nat) :
    c.beginLeave cfg env now = { Core.killed env
      { c with lifecycle := .leaving, events := c.events.filter (fun e => !e.isDial) }
      { incarnation := c.incarnation, node := cfg.localId, src := cfg.localId } m .left now with
      lifecycle := .left } := by
  have hinc' : Nat.max m.incarnation c.incarnation = c.incarnation := by rw [hinc]; simp
  unfold Core.beginLeave
  dsimp only
  rw [hm]
  dsimp only
  rw [hinc']
  unfold Core.processDead
  dsimp only
  rw [hm]
  dsimp only
  rw [if_neg (by rw [hinc]; omega), if_neg (by rw [hst]; simp), if_pos rfl, if_neg (by simp)]
  rfl

theorem Inv.beginLeave {c : Core I A} (h : Inv cfg c) (hl : c.lifecycle = .running) (now : Nat) :
    Inv cfg (c.beginLeave cfg env now) ∧ (c.beginLeave cfg env now).lifecycle = .left := by
  obtain ⟨m, hm, hlo⟩ := h.loc
  have hst : m.state = .alive := by have := hlo.state; rw [hl] at this; simpa using this
  have h' : Inv cfg { c with lifecycle := .leaving, events := c.events.filter (fun e => !e.isDial) } := by
    refine ⟨h.nodup, ⟨m, hm, ⟨hlo.inc, hlo.addr, hst⟩⟩, h.mem, h.genInj, h.idxInv, h.dl, h.cap⟩
  rw [beginLeave_eq env hm hlo.inc hst]
  exact ⟨Inv.killedLocal env h' _ now hm rfl rfl, rfl⟩

omit [DecidableEq A] in
theorem inv_init (now : Nat) : Inv cfg (Core.init cfg env now) := by
  have hget : ∀ id, Table.get (Core.init cfg env now).members id = if cfg.localId = id then
      some { server := { id := cfg.localId, addr := cfg.advertise, metadata := cfg.initialMeta, state := .alive
                         pv := cfg.pv, dv := cfg.dv }
             incarnation := cfg.initialIncarnation, stateChange := now, state := .alive, susp := none, gen := 1 }
      else none := by
    intro id
    have : (Core.init cfg env now).members = [_] := rfl
    rw [this, Table.get_cons]
    rfl
  refine ⟨by simp [Core.init, emit, broadcast], ?_, ?_, ?_, DeadlineIndex.inv_new, ?_, ?_⟩
  · exact ⟨_, by rw [hget, if_pos rfl], ⟨rfl, rfl, rfl⟩⟩
  · intro id m hm
    rw [hget] at hm
    split at hm
    · cases hm; exact ⟨by simp, .inl rfl, by simp, by simp [Core.init, emit, broadcast]⟩
    · cases hm
  · intro i j mi mj hi hj _
    rw [hget] at hi hj
    split at hi
    · split at hj
      · simp_all
      · cases hj
    · cases hi
  · intro id
    rw [hget]
    split <;> simp [Core.init, emit, broadcast, DeadlineIndex.new, DeadlineIndex.deadlineOf]
  · intro mx _
    exact Nat.le_max_right mx 1

end Verif.Core
