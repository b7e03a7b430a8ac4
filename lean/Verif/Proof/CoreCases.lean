import Verif.Proof.Table
/-
The outcomes of processing a claim, one by one.
-/
namespace Verif.Core
open Verif
variable {I A : Type} [DecidableEq I] [DecidableEq A]
variable (cfg : Cfg I A) (env : Env I A)

/-- The record inserted for a new id before the claim is adopted. -/
def placeholder (a : Alive I A) (gen now : Nat) : Member I A :=
  { server := nodeOf a .dead, incarnation := 0, stateChange := now, state := .dead
    susp := none, gen := gen }

/-- The state after inserting the placeholder. -/
def withPlaceholder (c : Core I A) (a : Alive I A) (offset now : Nat) : Core I A :=
  { c with
    nextGen := c.nextGen + 1
    members := c.members.insertAt (placeholder a c.nextGen now) (offset % (c.members.length + 1)) }

/-- The event of adopting a claim over the record `m`. -/
def adoptEvent (a : Alive I A) (m : Member I A) : Option (Event I A) :=
  if m.state = .dead ∨ m.state = .left then some (.nodeJoined (nodeOf a .alive))
  else if m.server.metadata ≠ a.metadata then some (.nodeUpdated (nodeOf a .alive))
  else none

/-- The state after adopting a claim over the record `m`, `upd` when the address changes. -/
def adopted (c : Core I A) (a : Alive I A) (upd : Bool) (m : Member I A) (now : Nat) : Core I A :=
  let c1 := c.clearSuspicion a.node.id
  let c2 : Core I A := { c1 with
    nextGen := if upd then c.nextGen + 1 else c.nextGen
    members := c1.members.update a.node.id (adoptAlive a (if upd then some c.nextGen else none) now) }
  let c3 := c2.broadcast env a.node.id (.alive a)
  match adoptEvent a m with
  | some ev => c3.emit ev
  | none => c3.bump

omit [DecidableEq A] in
theorem processSuspect_cases (c : Core I A) (s : BadState I) (now : Nat) (P : Core I A → Prop)
    (same : P c)
    (confirm : ∀ m susp susp' d, c.lifecycle = .running → c.members.get s.node = some m →
      m.incarnation ≤ s.incarnation → m.susp = some susp →
      susp.confirm env.accel s.src now = (susp', .accepted d) →
      P (broadcast env { c with
        members := c.members.update s.node (fun m => { m with susp := some susp' })
        suspIdx := c.suspIdx.set s.node (some d) } s.node (.suspect s)))
    (refuted : ∀ m, c.lifecycle = .running → c.members.get s.node = some m →
      m.incarnation ≤ s.incarnation → m.state = .alive → s.node = cfg.localId →
      P (c.refute cfg env s.incarnation))
    (start : ∀ m mn mx, c.lifecycle = .running → c.members.get s.node = some m →
      m.incarnation ≤ s.incarnation → m.susp = none → m.state = .alive → s.node ≠ cfg.localId →
      c.suspicionTimeouts cfg env = (mn, mx) →
      P (broadcast env (bump { c with
        members := (c.members.update s.node (fun m => { m with susp := some (Suspicion.new s.src
          (if c.members.length ≥ cfg.suspicionMult then cfg.suspicionMult - 2 else 0) mn mx now) })).update
            s.node (fun m => { m with incarnation := s.incarnation }.setState .suspect now)
        suspIdx := c.suspIdx.set s.node (some (Suspicion.new s.src
          (if c.members.length ≥ cfg.suspicionMult then cfg.suspicionMult - 2 else 0) mn mx now).deadline) })
        s.node (.suspect s))) :
    P (c.processSuspect cfg env s now) := by
  unfold processSuspect
  by_cases hl : c.lifecycle = .running
  · rw [if_neg (by simp [hl])]
    cases hg : c.members.get s.node with
    | none => exact same
    | some m =>
      dsimp only
      by_cases hi : s.incarnation < m.incarnation
      · rw [if_pos hi]; exact same
      · rw [if_neg hi]
        cases hs : m.susp with
        | some susp =>
          dsimp only
          cases hc : susp.confirm env.accel s.src now with
          | mk susp' v =>
            cases v with
            | accepted d => exact confirm m susp susp' d hl hg (by omega) hs hc
            | ignored => exact same
        | none =>
          dsimp only
          by_cases ha : m.state = .alive
          · rw [if_neg (by simp [ha])]
            by_cases hn : s.node = cfg.localId
            · rw [if_pos hn]; exact refuted m hl hg (by omega) ha hn
            · rw [if_neg hn]
              cases ht : c.suspicionTimeouts cfg env with
              | mk mn mx =>
                have := start m mn mx hl hg (by omega) hs ha hn ht
                simpa only [installSuspicion, hg] using this
          · rw [if_pos ha]; exact same
  · rw [if_pos hl]; exact same

/-- The state after a Dead claim is accepted. -/
def killed (c : Core I A) (d : BadState I) (m : Member I A) (st : NState) (now : Nat) : Core I A :=
  let c := c.clearSuspicion d.node
  let c := { c with
    members := c.members.update d.node (fun m => { m with incarnation := d.incarnation }.setState st now) }
  let c := c.broadcast env d.node (.dead d)
  c.emit (.nodeLeft m.server)

omit [DecidableEq A] in
theorem processDead_cases (c : Core I A) (d : BadState I) (now : Nat) (P : Core I A → Prop)
    (same : P c)
    (refuted : ∀ m, c.members.get d.node = some m → m.incarnation ≤ d.incarnation →
      d.node = cfg.localId → c.lifecycle ≠ .leaving → m.state ≠ .left → P (c.refute cfg env d.incarnation))
    (left : ∀ m, c.members.get d.node = some m → m.incarnation ≤ d.incarnation →
      m.state ≠ .dead → m.state ≠ .left → d.node = cfg.localId → c.lifecycle = .leaving →
      P { c.killed env d m .left now with lifecycle := .left })
    (killed : ∀ m, c.members.get d.node = some m → m.incarnation ≤ d.incarnation →
      m.state ≠ .dead → m.state ≠ .left → d.node ≠ cfg.localId → c.lifecycle = .running →
      P (c.killed env d m (if d.node = d.src then .left else .dead) now)) :
    P (c.processDead cfg env d now) := by
  unfold processDead
  cases hg : c.members.get d.node with
  | none => exact same
  | some m =>
    dsimp only
    by_cases hi : d.incarnation < m.incarnation
    · rw [if_pos hi]; exact same
    · rw [if_neg hi]
      by_cases hd : m.state = .dead ∨ m.state = .left
      · rw [if_pos hd]; exact same
      · rw [if_neg hd]
        simp only [not_or] at hd
        by_cases hn : d.node = cfg.localId
        · rw [if_pos hn]
          by_cases hl : c.lifecycle = .leaving
          · rw [if_neg (by simp [hl])]
            exact left m hg (by omega) hd.1 hd.2 hn hl
          · rw [if_pos hl]; exact refuted m hg (by omega) hn hl hd.2
        · rw [if_neg hn]
          by_cases hl : c.lifecycle = .running
          · rw [if_neg (by simp [hl])]
            exact killed m hg (by omega) hd.1 hd.2 hn hl
          · rw [if_pos hl]; exact same

/-- Whether a different address may take over the record. -/
def Reclaimable (cfg : Cfg I A) (m : Member I A) (now : Nat) : Prop :=
  m.state = .left ∨
    (m.state = .dead ∧ cfg.deadNodeReclaim > 0 ∧ now - m.stateChange > cfg.deadNodeReclaim)

theorem processAlive_cases (c : Core I A) (a : Alive I A) (ok : Bool) (offset now : Nat)
    (P : Core I A → Prop)
    (same : P c)
    (conflict : ∀ m, c.lifecycle = .running → ok = true → c.members.get a.node.id = some m →
      m.server.addr ≠ a.node.addr → ¬ Reclaimable cfg m now →
      P (c.emit (.nodeConflict m.server (nodeOf a .alive))))
    (full : ∀ mx, c.lifecycle = .running → ok = true → c.members.get a.node.id = none →
      cfg.maxMembers = some mx → mx ≤ c.members.length →
      P { c with membersRejected := c.membersRejected + 1 })
    (cleared : ∀ m, c.lifecycle = .running → ok = true → c.members.get a.node.id = some m →
      a.node.id = cfg.localId → P (c.clearSuspicion a.node.id))
    (refuted : ∀ m, c.lifecycle = .running → ok = true → c.members.get a.node.id = some m →
      a.node.id = cfg.localId → m.incarnation ≤ a.incarnation →
      P ((c.clearSuspicion a.node.id).refute cfg env a.incarnation))
    (newer : ∀ m, c.lifecycle = .running → ok = true → c.members.get a.node.id = some m →
      a.node.id ≠ cfg.localId → m.server.addr = a.node.addr → m.incarnation < a.incarnation →
      P (c.adopted env a false m now))
    (reclaim : ∀ m, c.lifecycle = .running → ok = true → c.members.get a.node.id = some m →
      a.node.id ≠ cfg.localId → m.server.addr ≠ a.node.addr → Reclaimable cfg m now →
      P (c.adopted env a true m now))
    (new : c.lifecycle = .running → ok = true → c.members.get a.node.id = none →
      a.node.id ≠ cfg.localId → (∀ mx, cfg.maxMembers = some mx → c.members.length < mx) →
      P ((c.withPlaceholder a offset now).adopted env a false (placeholder a c.nextGen now) now))
    (localPresent : (c.members.get cfg.localId).isSome = true)
    (localLive : ∀ m, c.lifecycle = .running → c.members.get cfg.localId = some m → m.state = .alive)
    (nodup : (c.members.map Member.id).Nodup) :
    P (c.processAlive cfg env a ok offset now) := by
  unfold processAlive
  by_cases hl : c.lifecycle = .running
  · rw [if_neg (by simp [hl])]
    cases hok : ok with
    | false => exact same
    | true =>
      simp only [Bool.not_true, Bool.false_eq_true, if_false]
      unfold processAliveDecided admitAlive
      cases hg : c.members.get a.node.id with
      | some m =>
        dsimp only
        by_cases ha : m.server.addr = a.node.addr
        · rw [if_neg (by simp [ha])]
          dsimp only
          rw [hg]
          dsimp only
          by_cases hn : a.node.id = cfg.localId
          · by_cases hi : a.incarnation < m.incarnation
            · simp only [hn, decide_true, hi, Bool.and_self, Bool.not_true, Bool.and_false, Bool.false_and,
                Bool.false_eq_true, if_false, if_true]
              exact same
            · simp only [hn, decide_true, hi, Bool.not_true, Bool.and_false, Bool.false_and,
                Bool.false_eq_true, if_false, if_true, decide_false, Bool.not_false, Bool.and_self]
              split
              · exact hn ▸ cleared m hl hok hg hn
              · exact hn ▸ refuted m hl hok hg hn (by omega)
          · by_cases hi : a.incarnation ≤ m.incarnation
            · simp only [hn, decide_false, hi, decide_true, Bool.not_false, Bool.and_self, if_true]
              exact same
            · simp only [hn, decide_false, hi, Bool.not_false, Bool.and_false, Bool.false_and,
                Bool.false_eq_true, if_false, if_true, Bool.true_or]
              have := newer m hl hok hg hn ha (by omega)
              unfold adopted adoptEvent at this
              simp only [Bool.false_eq_true, if_false] at this
              split
              · rename_i h; (simp only [h, if_true] at this; exact this)
              · rename_i h
                rw [if_neg h] at this
                split
                · rename_i h2; (simp only [h2, if_true, not_false_eq_true, ne_eq] at this; exact this)
                · rename_i h2; rw [if_neg h2] at this; exact this
        · rw [if_pos ha]
          by_cases hr : m.state = .left ∨
              (m.state = .dead ∧ cfg.deadNodeReclaim > 0 ∧ now - m.stateChange > cfg.deadNodeReclaim)
          · rw [if_pos hr]
            dsimp only
            rw [hg]
            dsimp only
            by_cases hn : a.node.id = cfg.localId
            · exfalso
              have := localLive m hl (hn ▸ hg)
              rw [this] at hr
              simp at hr
            · simp only [hn, decide_false, Bool.not_false, Bool.not_true, Bool.and_false, Bool.false_and,
                Bool.false_eq_true, if_false, if_true, Bool.true_or]
              have := reclaim m hl hok hg hn ha hr
              unfold adopted adoptEvent at this
              simp only [if_true] at this
              split
              · rename_i h; (simp only [h, if_true] at this; exact this)
              · rename_i h
                rw [if_neg h] at this
                split
                · rename_i h2; (simp only [h2, if_true, not_false_eq_true, ne_eq] at this; exact this)
                · rename_i h2; rw [if_neg h2] at this; exact this
          · rw [if_neg hr]; exact conflict m hl hok hg ha hr
      | none =>
        dsimp only
        have hn : a.node.id ≠ cfg.localId := fun e => by rw [e] at hg; rw [hg] at localPresent; cases localPresent
        by_cases hf : isFull cfg c.members.length = true
        · rw [if_pos hf]
          unfold isFull at hf
          cases hm : cfg.maxMembers with
          | none => rw [hm] at hf; cases hf
          | some mx => rw [hm] at hf; exact full mx hl hok hg hm (by simpa using hf)
        · rw [if_neg hf]
          dsimp only
          have hp : (c.members.insertAt (placeholder a c.nextGen now) (offset % (c.members.length + 1))).get
              a.node.id = some (placeholder a c.nextGen now) := by
            have hnd : ((placeholder a c.nextGen now :: c.members).map Member.id).Nodup := by
              simp only [List.map_cons, List.nodup_cons]
              exact ⟨Table.get_eq_none.1 hg, nodup⟩
            rw [Table.get_perm hnd (Table.insertAt_perm _ _ _), Table.get_cons, if_pos (by rfl)]
          have := new hl hok hg hn (by
            intro mx hm
            unfold isFull at hf
            rw [hm] at hf
            simpa using hf)
          unfold placeholder at hp
          rw [hp]
          simp only [hn, decide_false, Bool.not_false, Bool.not_true, Bool.and_false, Bool.false_and,
            Bool.false_eq_true, if_false, if_true, Bool.true_or, true_or]
          unfold adopted adoptEvent placeholder at this
          (simp only [Bool.false_eq_true, if_false, if_true, true_or] at this; exact this)
  · rw [if_pos hl]; exact same

end Verif.Core
