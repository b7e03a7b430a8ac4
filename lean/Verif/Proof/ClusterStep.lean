import Verif.Proof.ClusterNode
import Verif.Props.PushPull
/-
What a call of a node hands to the network, and what it leaves behind.
-/
namespace Verif.Cluster
open Verif Core Ep Spec
variable {I A : Type} [DecidableEq I] [DecidableEq A]
variable {cfg : Cfg I A} {env : Env I A}

theorem emits_ok {K : Facts I A} (hK : K.Sane) (LI : LawfulData env.CI) (LA : LawfulData env.CA) {e : Ep I A}
    (h : Reachable cfg env e) (hh : Held K cfg env e) (ho : OwnOk K cfg e.core) {op : Op I A}
    (hc : e.core.bcast.calls ≤ U64_MAX) :
    ∀ b ∈ emits env.CI env.CA (e.step cfg env op).2, BytesOk K env.CI env.CA b := by
  have hg := reachable_good h
  have hmsg : ∀ m, OkMsg K m → ∀ b ∈ wireOf env.CI env.CA m, BytesOk K env.CI env.CA b :=
    fun m hm b hb ms hp m' hm' => hm.decodes hK (wire_decodes LI LA hb hp m' hm')
  intro b hb
  cases op with
  | pollTransmit =>
    simp only [step] at hb
    unfold pollTransmit at hb
    split at hb
    · cases hb
    · rename_i t rest hts
      have hb' : b ∈ datagramOf env.CI env.CA t := hb
      intro ms hp m' hm'
      obtain ⟨m, h1, h2⟩ := datagram_decodes LI LA hb' hp m' hm'
      exact (hh.out t (by rw [hts]; exact List.mem_cons_self ..) m h1).decodes hK h2
  | drainBroadcasts =>
    simp only [step, drainBroadcasts, emits] at hb
    obtain ⟨m, hm, hb⟩ := List.mem_flatMap.1 hb
    obtain ⟨x, hx, rfl⟩ := List.mem_map.1 hm
    exact hmsg _ ((BQueue.takeMeasured_all (queue_ok hg hh.core hh.ownq ho hc) _ _ _).sent x hx) b hb
  | streamEvent ev now =>
    simp only [step] at hb
    unfold handleStreamEvent at hb
    split at hb
    · split at hb
      · cases hb
      · split at hb <;> cases hb
    · split at hb
      · cases hb
      · split at hb
        · cases hb
        · dsimp only at hb
          rw [mergeRemote_cached] at hb
          exact hmsg (.pushPull e.cached) hh.cache b hb
    · split at hb <;> cases hb
    · split at hb <;> cases hb
    · split at hb <;> cases hb
    · cases hb
    · cases hb
  | dialSucceeded id now =>
    simp only [step] at hb
    unfold dialSucceeded at hb
    split at hb
    · cases hb
    · rename_i i hi
      dsimp only at hb
      split at hb
      · cases hb
      · split at hb
        · cases hb
        · have hmem := Map.mem_of_get? hi
          by_cases hne : i.encoded = []
          · simp [emits, Stream.fresh, hne] at hb
          · simp [emits, Stream.fresh, hne] at hb
            rw [hb]; exact hh.intents _ hmem hne
  | acceptStream src now =>
    simp only [step] at hb
    unfold acceptStream at hb
    split at hb <;> cases hb
  | _ => cases hb

/-- A node that left says about itself what it said when it left. -/
theorem step_left {e : Ep I A} (h : Reachable cfg env e) (op : Op I A) (hn : ¬ IsLeave op)
    (hl : (e.step cfg env op).1.core.lifecycle = .left) :
    e.core.lifecycle = .left ∧
      (e.step cfg env op).1.core.members.get cfg.localId = e.core.members.get cfg.localId := by
  refine (step_acts e op).inductGood (Q := fun c => c.lifecycle = .left → e.core.lifecycle = .left ∧
    c.members.get cfg.localId = e.core.members.get cfg.localId) (reachable_good h) (fun h => ⟨h, rfl⟩) ?_ hl
  intro c x hx hc hq hl'
  have hlc : c.lifecycle = .left := by
    rcases act_lifecycle (env := env) hc x with e | ⟨now, rfl, _⟩
    · rw [← e]; exact hl'
    · cases hx with
      | leave now f => exact absurd ⟨now, f, rfl⟩ hn
  obtain ⟨h1, h2⟩ := hq hlc
  refine ⟨h1, Eq.trans ?_ h2⟩
  have hr : c.lifecycle ≠ .running := by rw [hlc]; nofun
  have hch := act_change (env := env) hc x cfg.localId
  obtain ⟨m1, hm1, _⟩ := (hc.act (env := env) x).inv.loc
  rw [hm1] at hch ⊢
  generalize hgo : c.members.get cfg.localId = o at hch
  cases hch with
  | same => rfl
  | confirm _ _ _ _ _ _ _ h => exact absurd rfl h
  | refuted _ _ _ _ h => exact absurd h hr
  | suspected _ _ _ _ _ _ h => exact absurd rfl h
  | killed _ _ _ _ h => exact absurd rfl h
  | expired _ _ _ h => exact absurd rfl h
  | newer _ _ _ _ _ _ h => exact absurd rfl h
  | reclaimed _ _ _ _ _ _ h => exact absurd rfl h
  | new _ _ _ _ _ h => exact absurd rfl h
  | metadata _ _ _ h => exact absurd h hr
  | left _ _ _ h => exact absurd h hr

/-- The node's own claim is well formed. -/
def OwnWF (cfg : Cfg I A) (c : Core I A) : Prop :=
  ∀ m, c.members.get cfg.localId = some m → MessageWF (.alive (aliveOf m.server m.incarnation))

theorem refuteInc_lt (a b : Nat) : refuteInc a b < 2 ^ 32 := by
  unfold refuteInc; split <;> omega

theorem step_ownWF {e : Ep I A} (h : Reachable cfg env e) (hv : CanonVersion cfg.pv ∧ CanonVersion cfg.dv) {op : Op I A}
    (hmd : ∀ md, op = .updateMeta md → md.length ≤ 65535) (hw : OwnWF cfg e.core) :
    OwnWF cfg (e.step cfg env op).1.core := by
  refine (step_acts e op).inductGood (Q := OwnWF cfg) (reachable_good h) hw ?_
  intro c x hx hc hq m' hm'
  have hch := act_change (env := env) hc x cfg.localId
  rw [hm'] at hch
  generalize hgo : c.members.get cfg.localId = o at hch
  cases hch with
  | same => exact hq m' hgo
  | confirm _ _ _ _ _ _ _ h => exact absurd rfl h
  | refuted _ m acc _ _ ha => exact ⟨refuteInc_lt _ _, (hq m hgo).2⟩
  | suspected _ _ _ _ _ _ h => exact absurd rfl h
  | killed _ _ _ _ h => exact absurd rfl h
  | expired _ _ _ h => exact absurd rfl h
  | newer _ _ _ _ _ _ h => exact absurd rfl h
  | reclaimed _ _ _ _ _ _ h => exact absurd rfl h
  | new _ _ _ _ _ h => exact absurd rfl h
  | metadata md m =>
    cases hx with
    | updateMeta md => exact ⟨Nat.mod_lt _ (by decide), hmd md rfl, hv.1, hv.2⟩
  | left now m =>
    have := hq m hgo
    rw [← (hc.inv.local_get hgo).inc] at *
    exact this

/-- One call of an admissible node: what it holds afterwards, what it handed to the network, and why it has left if it
has. -/
theorem node_step {K : Facts I A} (hK : K.Sane) (LI : LawfulData env.CI) (LA : LawfulData env.CA) {e : Ep I A}
    (h : Reachable cfg env e) (hh : Held K cfg env e) (ho : OwnOk K cfg e.core) {op : Op I A} (hi : InputOk K cfg op)
    (hgone : IsLeave op → e.core.lifecycle = .running →
      ∀ m, e.core.members.get cfg.localId = some m → K.gone cfg.localId m.incarnation)
    (hc : (e.step cfg env op).1.core.bcast.calls ≤ U64_MAX) :
    Held (K.plus cfg e op (stepEnds cfg env e op)) cfg env (e.step cfg env op).1 ∧
    (∀ b ∈ emits env.CI env.CA (e.step cfg env op).2, BytesOk K env.CI env.CA b) ∧
    ((e.step cfg env op).1.core.lifecycle = .left → ∀ m, (e.step cfg env op).1.core.members.get cfg.localId = some m →
      K.gone cfg.localId m.incarnation) ∧
    Acts cfg env (Allowed (K.plus cfg e op (stepEnds cfg env e op)) cfg op) e.core (e.step cfg env op).1.core := by
  have hg := reachable_good h
  have hgone' : IsLeave op → ∀ m, e.core.members.get cfg.localId = some m → K.gone cfg.localId m.incarnation := by
    intro hl m hm
    cases hlc : e.core.lifecycle with
    | running => exact hgone hl hlc m hm
    | leaving => exact absurd hlc hg.settled
    | left => exact (ho m hm).2 hlc
  have hmid := step_mid hK LI LA h hh ho hi hgone' hc
  refine ⟨hmid.1, emits_ok hK LI LA h hh ho (Nat.le_trans (acts_calls hg (step_acts e op)) hc), ?_, hmid.2.2⟩
  intro hl m hm
  by_cases hlv : IsLeave op
  · have hr : Reads op := by obtain ⟨now, f, rfl⟩ := hlv; trivial
    obtain ⟨m0, h1, _, h2⟩ := (hmid.2.1 hr).same m hm
    rw [← h2]; exact hgone' hlv m0 h1
  · obtain ⟨h1, h2⟩ := step_left h op hlv hl
    rw [h2] at hm
    exact (ho m hm).2 h1

/-- What the node said of itself at a moment: the same as now, or in an older incarnation. -/
def Grown (cfg : Cfg I A) (m : Member I A) (c : Core I A) : Prop :=
  ∀ m', c.members.get cfg.localId = some m' →
    aliveOf m'.server m'.incarnation = aliveOf m.server m.incarnation ∨ m.incarnation < m'.incarnation

/-- Within a call the node's claim about itself only grows, while the incarnation counter does not wrap. -/
theorem own_grows {K : Facts I A} (hK : K.Sane) (hw : ∀ a, K.ann a → a.node.id = cfg.localId → a.incarnation < 2 ^ 32 - 1)
    {e : Ep I A} (h : Reachable cfg env e) {op : Op I A}
    (ha : Acts cfg env (Allowed K cfg op) e.core (e.step cfg env op).1.core) {m : Member I A}
    (hm : e.core.members.get cfg.localId = some m) (hinc : m.incarnation < 2 ^ 32 - 1) :
    Grown cfg m (e.step cfg env op).1.core := by
  have hg := reachable_good h
  have h0 : Grown cfg m e.core := fun m' hm' => by rw [hm] at hm'; cases hm'; exact .inl rfl
  by_cases hop : ∃ md, op = .updateMeta md
  · obtain ⟨md, rfl⟩ := hop
    simp only [step]
    unfold Ep.updateMeta
    split
    · exact h0
    · split
      · exact h0
      · rename_i hr _
        have hr' : e.core.lifecycle = .running := by
          simpa [Ep.isRunning] using hr
        intro m' hm'
        have hch := act_change (env := env) hg (.updateMeta md) cfg.localId
        have hact : Core.act cfg env e.core (.updateMeta md) = e.core.updateMeta cfg env md := by
          simp [Core.act, hr']
        rw [hact, hm, hm'] at hch
        cases hch with
        | same => exact .inl rfl
        | refuted _ _ acc _ _ hacc => cases hacc
        | metadata =>
          right
          show m.incarnation < (e.core.incarnation + 1) % 2 ^ 32
          rw [← (hg.inv.local_get hm).inc, Nat.mod_eq_of_lt (by omega)]
          omega
  · refine ha.inductGood (Q := Grown cfg m) hg h0 ?_
    intro c x hx hc hq m' hm'
    have hch := act_change (env := env) hc x cfg.localId
    rw [hm'] at hch
    generalize hgo : c.members.get cfg.localId = o at hch
    cases hch with
    | same => exact hq m' hgo
    | confirm _ _ _ _ _ _ _ h => exact absurd rfl h
    | refuted _ m1 acc _ _ hacc hle =>
      have hlt : acc < 2 ^ 32 - 1 := by
        cases hacc with
        | suspect s now hn =>
          obtain ⟨a, h1, h2, h3⟩ := hK.reach _ _ hx.1
          have := hw a h1 (h2.trans hn)
          omega
        | dead d now hn =>
          obtain ⟨a, h1, h2, h3⟩ := hK.reach _ _ hx.1.1
          have := hw a h1 (h2.trans hn)
          omega
        | alive a ok off now hn hok => exact hw a hx.1 hn
      have hi := (hc.inv.local_get hgo).inc
      right
      show m.incarnation < refuteInc c.incarnation acc
      have h2 : m.incarnation ≤ m1.incarnation := by
        rcases hq m1 hgo with e1 | e1
        · have : m1.incarnation = m.incarnation := congrArg Alive.incarnation e1
          omega
        · omega
      unfold refuteInc
      rw [← hi]
      split
      · rw [Nat.mod_eq_of_lt (by omega)]; omega
      · rename_i hnn
        rw [Nat.mod_eq_of_lt (by omega)] at hnn ⊢
        omega
    | suspected _ _ _ _ _ _ h => exact absurd rfl h
    | killed _ _ _ _ h => exact absurd rfl h
    | expired _ _ _ h => exact absurd rfl h
    | newer _ _ _ _ _ _ h => exact absurd rfl h
    | reclaimed _ _ _ _ _ _ h => exact absurd rfl h
    | new _ _ _ _ _ h => exact absurd rfl h
    | metadata md m1 => exact absurd ⟨md, hx.2.2 md rfl⟩ hop
    | left now m1 =>
      have hi := (hc.inv.local_get hgo).inc
      have := hq m1 hgo
      dsimp only
      rw [← hi]
      exact this

end Verif.Cluster
