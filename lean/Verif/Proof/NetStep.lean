import Verif.Proof.NetInv
import Verif.Proof.Events
import Verif.Spec.Probe
/-
What the elementary steps do to the core, and the invariants of reachable states they give.
-/
namespace Verif.Ep
open Verif Core Spec
variable {I A : Type} [DecidableEq I] [DecidableEq A]
variable {cfg : Cfg I A} {env : Env I A}

/-! ### The core along elementary steps -/

theorem base_true : Base (I := I) (A := A) (fun _ => True) where
  push _ _ := trivial
  fail _ := trivial
  success := trivial
  drain _ _ := trivial
  one _ := trivial

/-- The core moves by actions the call may cause. -/
theorem micro_actsOf {op : Op I A} {late : Bool} {e e' : Ep I A} (h : Micro cfg env op late e e') :
    Acts cfg env (ActOf cfg env op) e.core e'.core := by
  cases h with
  | core x hx => exact .single hx.act
  | aux _ hc hn hf hu => exact .of_eq hc
  | send t ht => exact .refl _
  | dial id peer d hr hd => exact acts_push (base_actOf op) e.core (ev := .dialRequested id peer d) rfl
  | start seq p a hs hr hw hlt => exact .refl _
  | alloc seq hs => exact .refl _
  | dispatched seq b hlt => exact .refl _
  | fail seq p now hp hw hr hlt => exact probeTerminateFailure_acts (base_actOf op) e seq now (fun s hs => .probeFailed s hw.1 hs)
  | done seq p direct payload now hp hd hw hr hlt =>
    exact completeProbeSuccess_acts (base_actOf op) e seq direct payload now (fun s hs => .probeFailed s (by
      rcases hw with ⟨src, rfl, _⟩ | ⟨⟨t, rfl⟩, _⟩ <;> rfl) hs)
  | nack src seq now ho => rw [handleNack_core]; exact .refl _
  | fan seq p now peers st ho hp hk hph hd hf hl hnd ha hfit hlt => exact .refl _
  | fwd seq src p now ho hs hsrc hl hnew => exact .refl _
  | fwdAnswer seq f hf payload now ho hd => exact .refl _
  | fwdExpire seq f hf now ho hd => exact .refl _
  | intent i hr => exact .refl _
  | intentDial i hr hw => exact acts_push (base_actOf op) (e.addIntent i).core (ev := .dialRequested e.net.nextStreamId i.peer i.deadline) rfl
  | skipId => exact .refl _
  | unintent id hw => exact .refl _
  | retire seq => exact .refl _
  | gossip targets now ho hr => rw [sendAll_core]; exact drainGossip_acts (base_actOf op) e
  | leave now f ho hr => exact leaveWith_acts (base_actOf op) e now f (by rw [ho]; exact .leave now f)
  | poll ho =>
    unfold pollTransmit
    split
    · exact .refl _
    · dsimp only
      split
      · exact .refl _
      · split
        · exact acts_push (base_actOf op) _ rfl
        · exact .refl _

/-- The core moves by actions. -/
theorem micro_acts {op : Op I A} {late : Bool} {e e' : Ep I A} (h : Micro cfg env op late e e') :
    Acts cfg env (fun _ => True) e.core e'.core := (micro_actsOf h).mono (fun _ _ => trivial)

theorem micro_good {op : Op I A} {late : Bool} {e e' : Ep I A} (h : Micro cfg env op late e e') (hg : Good cfg e.core) :
    Good cfg e'.core := (micro_acts h).good hg

/-- Induction over the elementary steps of one call, with the invariants. -/
theorem micros_induct {Q : Ep I A → Prop} {op : Op I A} {late : Bool} {e e' : Ep I A} (h : Micros cfg env op late e e')
    (hg : Good cfg e.core) (hn : NetOk cfg e.net) (h0 : Q e)
    (hs : ∀ a b, Good cfg a.core → NetOk cfg a.net → Q a → Micro cfg env op late a b → Q b) : Q e' := by
  have : Good cfg e'.core ∧ NetOk cfg e'.net ∧ Q e' := by
    induction h with
    | refl => exact ⟨hg, hn, h0⟩
    | tail _ hm ih => exact ⟨micro_good hm ih.1, ih.2.1.micro hm, hs _ _ ih.1 ih.2.1 ih.2.2 hm⟩
  exact this.2.2

/-- The invariant of the tables holds in every reachable state. -/
theorem reachable_netOk {e : Ep I A} (h : Reachable cfg env e) : NetOk cfg e.net := by
  refine reachable_induct (P := fun e => NetOk cfg e.net) h ?_ ?_
  · intro now e0 h0
    rw [tryNew_eq h0]
    have : ∀ e : Ep I A, e.refreshCache.net = e.net := by
      intro e; unfold refreshCache; split <;> rfl
    rw [this]
    exact netOk_new
  · intro e op hr hn
    have h := step_micros (cfg := cfg) (env := env) e op hn.tables
    have hg := reachable_good hr
    have h1 : Good cfg (stepEnds cfg env e op).core ∧ NetOk cfg (stepEnds cfg env e op).net :=
      micros_induct (Q := fun e => Good cfg e.core ∧ NetOk cfg e.net) h.1 hg hn ⟨hg, hn⟩
        (fun a b hg ha _ hm => ⟨micro_good hm hg, ha.micro hm⟩)
    exact micros_induct (Q := fun e => NetOk cfg e.net) h.2 h1.1 h1.2 h1.2 (fun a b _ ha _ hm => ha.micro hm)

/-- Induction over the elementary steps of one call from a reachable state, in its two parts. -/
theorem step_micro_induct2 {Q R : Ep I A → Prop} {e : Ep I A} (h : Reachable cfg env e) (op : Op I A) (h0 : Q e)
    (hs : ∀ a b, Good cfg a.core → NetOk cfg a.net → Q a → Micro cfg env op false a b → Q b)
    (h1 : ∀ a, a = stepEnds cfg env e op → Good cfg a.core → NetOk cfg a.net → Q a → R a)
    (hs' : ∀ a b, Good cfg a.core → NetOk cfg a.net → R a → Micro cfg env op true a b → R b) :
    R (e.step cfg env op).1 := by
  have hn := reachable_netOk h
  have hg := reachable_good h
  have hm := step_micros (cfg := cfg) (env := env) e op hn.tables
  have hq : Good cfg (stepEnds cfg env e op).core ∧ NetOk cfg (stepEnds cfg env e op).net ∧ Q (stepEnds cfg env e op) :=
    micros_induct (Q := fun e => Good cfg e.core ∧ NetOk cfg e.net ∧ Q e) hm.1 hg hn ⟨hg, hn, h0⟩
      (fun a b hg ha hq hm => ⟨micro_good hm hg, ha.micro hm, hs a b hg ha hq.2.2 hm⟩)
  exact micros_induct (Q := R) hm.2 hq.1 hq.2.1 (h1 _ rfl hq.1 hq.2.1 hq.2.2) hs'

/-- Induction over the elementary steps of one call from a reachable state. -/
theorem step_micro_induct {Q : Ep I A → Prop} {e : Ep I A} (h : Reachable cfg env e) (op : Op I A) (h0 : Q e)
    (hs : ∀ late a b, Good cfg a.core → NetOk cfg a.net → Q a → Micro cfg env op late a b → Q b) :
    Q (e.step cfg env op).1 :=
  step_micro_induct2 h op h0 (hs false) (fun _ _ _ _ h => h) (hs true)

/-! ### Generations -/

/-- Generation `g` of a remote id was given out, and if it is still the current one, its record is at least as
new as `inc` and has the address `addr`. -/
def GenOk (c : Core I A) (id : I) (g inc : Nat) (addr : A) : Prop :=
  g < c.nextGen ∧ ∀ m, c.members.get id = some m → m.gen = g → inc ≤ m.incarnation ∧ m.server.addr = addr

theorem GenOk.act {c : Core I A} (hc : Good cfg c) (x : Act I A) {id : I} (hid : id ≠ cfg.localId) {g inc : Nat}
    {addr : A} (h : GenOk c id g inc addr) : GenOk (Core.act cfg env c x) id g inc addr := by
  obtain ⟨hn, hq⟩ := h
  refine ⟨Nat.lt_of_lt_of_le hn (act_nextGen hc x), ?_⟩
  have hch := act_change (env := env) hc x id
  revert hch
  generalize (Core.act cfg env c x).members.get id = o'
  generalize ho : c.members.get id = o
  intro hch m' hm' hgen
  cases hch with
  | same => exact hq _ (by rw [ho]; exact hm') hgen
  | confirm => cases hm'; have := hq _ ho hgen; exact this
  | refuted x m acc h1 => exact absurd h1 hid
  | suspected s now m mn mx _ _ _ hle =>
    cases hm'
    have := hq _ ho hgen
    exact ⟨Nat.le_trans this.1 hle, this.2⟩
  | killed d now m _ _ _ hle =>
    cases hm'
    have := hq _ ho hgen
    exact ⟨Nat.le_trans this.1 hle, this.2⟩
  | expired => cases hm'; have := hq _ ho hgen; exact this
  | newer a ok off now m _ _ _ _ h5 h6 =>
    cases hm'
    obtain ⟨h1, h2, h3, h4, _⟩ := adoptAlive_fields a none now { m with susp := none }
    rw [h4] at hgen
    have := hq _ ho hgen
    refine ⟨by rw [h2]; omega, ?_⟩
    rw [h3]
    exact h5.symm.trans this.2
  | reclaimed a ok off now m =>
    cases hm'
    obtain ⟨h1, h2, h3, h4, _⟩ := adoptAlive_fields a (some c.nextGen) now { m with susp := none }
    rw [h4] at hgen
    simp only [Option.getD_some] at hgen
    omega
  | new a ok off now =>
    cases hm'
    obtain ⟨h1, h2, h3, h4, _⟩ := adoptAlive_fields a none now (placeholder a c.nextGen now)
    rw [h4] at hgen
    simp only [Option.getD_none, placeholder] at hgen
    omega
  | reaped => cases hm'
  | metadata md m h1 => exact absurd h1 hid
  | left now m h1 => exact absurd h1 hid

theorem GenOk.acts {c c' : Core I A} (hc : Good cfg c) {P : Act I A → Prop} (ha : Acts cfg env P c c') {id : I}
    (hid : id ≠ cfg.localId) {g inc : Nat} {addr : A} (h : GenOk c id g inc addr) : GenOk c' id g inc addr :=
  ha.inductGood (Q := fun c => GenOk c id g inc addr) hc h (fun _ x _ hc hq => hq.act hc x hid)

/-- What holds of a pending detection probe and the core. -/
def ProbeGen (cfg : Cfg I A) (c : Core I A) (p : Probe I A) : Prop :=
  p.kind = .detection → p.target.id ≠ cfg.localId ∧ 0 < p.targetGeneration ∧
    GenOk c p.target.id p.targetGeneration p.targetIncarnation p.target.addr

omit [DecidableEq A] in
theorem ProbeGen.congr {c : Core I A} {p p' : Probe I A} (h : ProbeGen cfg c p) (h1 : p'.kind = p.kind)
    (h2 : p'.target = p.target) (h3 : p'.targetGeneration = p.targetGeneration)
    (h4 : p'.targetIncarnation = p.targetIncarnation) : ProbeGen cfg c p' := by
  intro hk; rw [h2, h3, h4]; exact h (h1 ▸ hk)

omit [DecidableEq I] [DecidableEq A] in
theorem _root_.Verif.Spec.SameProbe.refl (p : Probe I A) : SameProbe p p := ⟨rfl, rfl, rfl, rfl, rfl, rfl⟩

omit [DecidableEq I] [DecidableEq A] in
theorem _root_.Verif.Spec.SameProbe.trans {p q r : Probe I A} (h : SameProbe p q) (h2 : SameProbe q r) : SameProbe p r :=
  ⟨h2.target.trans h.target, h2.inc.trans h.inc, h2.gen.trans h.gen, h2.sentAt.trans h.sentAt,
    h2.kind.trans h.kind, h2.deadline.trans h.deadline⟩

/-- The call asks the relays for this probe. -/
def Fanned (op : Op I A) (p p' : Probe I A) : Prop :=
  (∃ now, op = .timeout now ∧ now < p.failureDeadline ∧ ∃ d, p.phase = .direct d) ∧ ∀ d, p'.phase ≠ .direct d

/-- How a pending probe that stays pending changes. -/
structure Kept (op : Op I A) (late : Bool) (seq : Nat) (p p' : Probe I A) : Prop extends SameProbe p p' where
  ping : p.kind = .ping → p'.phase = p.phase
  asked : asked p' = asked p ∨ Fanned op p p'
  nack : nackersOf p' = nackersOf p ∨ ∃ src now, op = .packet src (.nack seq) now
  direct : (∀ d, p'.phase = .direct d ↔ p.phase = .direct d) ∨ Fanned op p p'
  disp : p'.dispatched = p.dispatched ∨ Fanned op p p' ∨ late = true

omit [DecidableEq I] in
theorem Kept.refl {op : Op I A} {late : Bool} {seq : Nat} (p : Probe I A) : Kept op late seq p p :=
  { SameProbe.refl p with
    ping := fun _ => rfl, asked := .inl rfl, nack := .inl rfl, direct := .inl (fun _ => Iff.rfl), disp := .inl rfl }

omit [DecidableEq I] in
theorem Fanned.trans_left {op : Op I A} {late : Bool} {seq : Nat} {p q r : Probe I A} (h : Fanned op p q)
    (h2 : Kept op late seq q r) : Fanned op p r := by
  refine ⟨h.1, fun d hd => ?_⟩
  rcases h2.direct with h3 | h3
  · exact h.2 d ((h3 d).1 hd)
  · obtain ⟨_, _, _, d', hd'⟩ := h3.1
    exact h.2 d' hd'

omit [DecidableEq I] in
theorem Fanned.trans_right {op : Op I A} {late : Bool} {seq : Nat} {p q r : Probe I A} (h : Kept op late seq p q)
    (h2 : Fanned op q r) : Fanned op p r := by
  obtain ⟨⟨now, ho, hl, d, hd⟩, h3⟩ := h2
  refine ⟨⟨now, ho, by rw [← h.deadline]; exact hl, ?_⟩, h3⟩
  rcases h.direct with h4 | h4
  · exact ⟨d, (h4 d).1 hd⟩
  · exact absurd hd (h4.2 d)

omit [DecidableEq I] in
theorem Kept.trans {op : Op I A} {late : Bool} {seq : Nat} {p q r : Probe I A} (h : Kept op late seq p q)
    (h2 : Kept op late seq q r) : Kept op late seq p r where
  toSameProbe := h.toSameProbe.trans h2.toSameProbe
  ping hk := (h2.ping (by rw [h.kind]; exact hk)).trans (h.ping hk)
  asked := by
    rcases h.asked with h1 | h1
    · rcases h2.asked with h3 | h3
      · exact .inl (h3.trans h1)
      · exact .inr (h3.trans_right h)
    · exact .inr (h1.trans_left h2)
  nack := by
    rcases h.nack with h1 | h1
    · rcases h2.nack with h3 | h3
      · exact .inl (h3.trans h1)
      · exact .inr h3
    · exact .inr h1
  direct := by
    rcases h.direct with h1 | h1
    · rcases h2.direct with h3 | h3
      · exact .inl (fun d => (h3 d).trans (h1 d))
      · exact .inr (h3.trans_right h)
    · exact .inr (h1.trans_left h2)
  disp := by
    rcases h.disp with h1 | h1 | h1
    · rcases h2.disp with h3 | h3 | h3
      · exact .inl (h3.trans h1)
      · exact .inr (.inl (h3.trans_right h))
      · exact .inr (.inr h3)
    · exact .inr (.inl (h1.trans_left h2))
    · exact .inr (.inr h1)

omit [DecidableEq I] in
theorem Kept.late {op : Op I A} {late : Bool} {seq : Nat} {p q : Probe I A} (h : Kept op late seq p q) :
    Kept op true seq p q :=
  { h with disp := .inr (.inr rfl) }

omit [DecidableEq I] [DecidableEq A] in
theorem relaysOf_eq (p : Probe I A) : relaysOf p = asked p := by
  unfold relaysOf Ep.asked; cases p.phase <;> rfl

/-- What an elementary step does to the probe with one sequence number. -/
inductive Slot (cfg : Cfg I A) (env : Env I A) (op : Op I A) (late : Bool) (e e' : Ep I A) (seq : Nat) : Prop
  | none (h : e.net.probes.get? seq = none) (h' : e'.net.probes.get? seq = none)
  | kept (p p' : Probe I A) (h : e.net.probes.get? seq = some p) (h' : e'.net.probes.get? seq = some p')
      (hs : Kept op late seq p p')
  | started (p : Probe I A) (a : AckEntry A) (h : e.net.probes.get? seq = none)
      (h' : e'.net.probes.get? seq = some p) (hw : StartWhy cfg op e p a) (hlate : late = true)
  | failed (p : Probe I A) (now : Nat) (h : e.net.probes.get? seq = some p) (h' : e'.net.probes.get? seq = none)
      (hw : FailWhy cfg op p now) (he : e' = e.probeTerminateFailure cfg env seq now) (hlate : late = false)
  | done (p : Probe I A) (direct : Bool) (payload : Bytes) (now : Nat) (h : e.net.probes.get? seq = some p)
      (h' : e'.net.probes.get? seq = none) (hd : now < p.failureDeadline)
      (hw : DoneWhy op seq p direct payload now) (he : e' = e.completeProbeSuccess cfg env seq direct payload now)
      (hlate : late = false)

theorem slot_modify {op : Op I A} {late : Bool} {e e' : Ep I A} {s : Nat} {f : Probe I A → Probe I A}
    (hn : e'.net.probes = e.net.probes.modify s f)
    (hf : ∀ p, e.net.probes.get? s = some p → Kept op late s p (f p)) {seq : Nat} :
    Slot cfg env op late e e' seq := by
  cases hp : e.net.probes.get? seq with
  | none =>
    refine .none hp ?_
    rw [hn, Map.get?_modify, hp]
    split <;> rfl
  | some p =>
    by_cases he : s = seq
    · subst he
      refine .kept p (f p) hp ?_ (hf p hp)
      rw [hn, Map.get?_modify, hp, if_pos rfl]; rfl
    · refine .kept p p hp ?_ (.refl p)
      rw [hn, Map.get?_modify, if_neg he, hp]

theorem slot_same {op : Op I A} {late : Bool} {e e' : Ep I A} (hn : e'.net.probes = e.net.probes) {seq : Nat} :
    Slot cfg env op late e e' seq := by
  cases hp : e.net.probes.get? seq with
  | none => exact .none hp (by rw [hn, hp])
  | some p => exact .kept p p hp (by rw [hn, hp]) (.refl p)

theorem slot_erase {op : Op I A} {late : Bool} {e e' : Ep I A} {s seq : Nat} (hn : e'.net.probes = e.net.probes.erase s)
    (hne : s ≠ seq) : Slot cfg env op late e e' seq := by
  have : e'.net.probes.get? seq = e.net.probes.get? seq := by rw [hn, Map.get?_erase, if_neg hne]
  cases hp : e.net.probes.get? seq with
  | none => exact .none hp (by rw [this, hp])
  | some p => exact .kept p p hp (by rw [this, hp]) (.refl p)

omit [DecidableEq I] [DecidableEq A] in
theorem discard_probes (n : Net I A) (seq : Nat) (p : Probe I A) :
    (discardProbe n seq p).probes = n.probes.erase seq := by
  unfold discardProbe removeIntent
  dsimp only
  split <;> rfl

theorem micro_slot {op : Op I A} {late : Bool} {e e' : Ep I A} (h : Micro cfg env op late e e') (hn : NetOk cfg e.net) (seq : Nat) :
    Slot cfg env op late e e' seq := by
  cases h with
  | core x hx => exact slot_same (by rfl)
  | aux _ hc hs hf hu => exact slot_same hs.probes
  | send t ht => exact slot_same (by rfl)
  | dial id peer d hr hd => exact slot_same (by rfl)
  | start s p a hs hr hw hlt =>
    have hfree := (allocSeq_spec hs).2.2.1
    by_cases he : s = seq
    · subst he
      exact .started p a hfree (by dsimp only; rw [Map.get?_insert, if_pos rfl]) hw hlt
    · have : (e.net.probes.insert s p).get? seq = e.net.probes.get? seq := by rw [Map.get?_insert, if_neg he]
      cases hp : e.net.probes.get? seq with
      | none => exact .none hp (by dsimp only; rw [this, hp])
      | some q => exact .kept q q hp (by dsimp only; rw [this, hp]) (.refl q)
  | alloc s hs => exact slot_same (by rfl)
  | dispatched s b hlt =>
    apply slot_modify (s := s) (f := (fun p => { p with dispatched := b })) (hn := rfl)
    intro p hp
    exact { SameProbe.refl p with
      ping := fun _ => rfl, asked := .inl rfl, nack := .inl rfl, direct := .inl (fun _ => Iff.rfl)
      disp := .inr (.inr hlt) }
  | fail s p now hp hw hr hlt =>
    have h1 : (e.probeTerminateFailure cfg env s now).net.probes = e.net.probes.erase s := by
      rw [terminate_net e s now p hp, discard_probes]
    by_cases he : s = seq
    · subst he
      exact .failed p now hp (by rw [h1, Map.get?_erase, if_pos rfl]) hw rfl hlt
    · exact slot_erase h1 he
  | done s p direct payload now hp hd hw hr hlt =>
    have h1 : (e.completeProbeSuccess cfg env s direct payload now).net.probes = e.net.probes.erase s := by
      rw [complete_net e s now direct payload p hp hd]
    by_cases he : s = seq
    · subst he
      exact .done p direct payload now hp (by rw [h1, Map.get?_erase, if_pos rfl]) hd hw rfl hlt
    · exact slot_erase h1 he
  | nack src s now ho =>
    unfold handleNack
    split
    · exact slot_same (by rfl)
    · rename_i p hp
      split
      · exact slot_same (by rfl)
      · split
        · rename_i ex ps nb st d hph
          split
          · apply slot_modify (s := s) (f := (fun p => { p with phase := .indirect ex ps (nb ++ [src]) st d })) (hn := rfl)
            intro q hq
            rw [hp] at hq; cases hq
            refine { SameProbe.refl p with
              ping := fun hk => ?_, asked := .inl ?_, nack := .inr ⟨src, now, ho⟩
              direct := .inl (fun d => ?_), disp := .inl rfl }
            · have := ((hn.ok _ _ hp).indirect _ _ _ _ _ hph).2.2.2.2.2.1
              rw [hk] at this; cases this
            · unfold asked; rw [hph]
            · rw [hph]; exact ⟨fun h => by simp at h, fun h => by simp at h⟩
          · exact slot_same (by rfl)
        · exact slot_same (by rfl)
  | fan s p now peers st ho hp hk hph hd hf hl hnd ha hfit hlt =>
    apply slot_modify (s := s) (f := (fun p => { p with dispatched := true, phase := .indirect peers.length peers [] st p.failureDeadline })) (hn := rfl)
    intro q hq
    rw [hp] at hq; cases hq
    have hfan : Fanned op p { p with dispatched := true, phase := .indirect peers.length peers [] st p.failureDeadline } :=
      ⟨⟨now, ho, hf, hph⟩, fun d h => by simp at h⟩
    refine { SameProbe.refl p with
      ping := fun hk' => ?_, asked := .inr hfan, nack := .inl ?_, direct := .inr hfan, disp := .inr (.inl hfan) }
    · rw [hk] at hk'; cases hk'
    · obtain ⟨d, hd⟩ := hph
      unfold nackersOf; rw [hd]
  | fwd s src p now ho hs hsrc hl hnew => exact slot_same (by rfl)
  | fwdAnswer s f hf payload now ho hd => exact slot_same (by rfl)
  | fwdExpire s f hf now ho hd => exact slot_same (by rfl)
  | intent i hr => exact slot_same (by rfl)
  | intentDial i hr hw => exact slot_same (by rfl)
  | skipId => exact slot_same (by rfl)
  | unintent id hw => exact slot_same (by rfl)
  | retire s =>
    apply slot_modify (s := s) (f := (fun p => match p.phase with
      | .indirect ex ps nb _ d => { p with phase := .indirect ex ps nb none d }
      | .direct _ => p)) (hn := rfl)
    intro p hp
    cases hph : p.phase with
    | direct d => exact .refl _
    | indirect ex ps nb st d =>
      refine { SameProbe.refl p with
        ping := fun hk => ?_, asked := .inl ?_, nack := .inl ?_
        direct := .inl (fun d => ?_), disp := .inl rfl }
      · have := ((hn.ok _ _ hp).indirect _ _ _ _ _ hph).2.2.2.2.2.1
        rw [hk] at this; cases this
      · unfold asked; rw [hph]
      · unfold nackersOf; rw [hph]
      · rw [hph]; exact ⟨fun h => by simp at h, fun h => by simp at h⟩
  | gossip targets now ho hr =>
    obtain ⟨ts, h1, _⟩ := sendAll_net (e.drainGossip cfg env).1 targets (e.drainGossip cfg env).2
    exact slot_same (by rw [h1, (drainGossip_net e).1])
  | leave now f ho hr =>
    obtain ⟨ts, h1⟩ := leaveWith_net (cfg := cfg) (env := env) e now f hr
    exact slot_same (by rw [h1])
  | poll ho => exact slot_same (by rw [pollTransmit_net])

/-- The probes stay tied to the generation they probe. -/
theorem reachable_probeGen {e : Ep I A} (h : Reachable cfg env e) {seq : Nat} {p : Probe I A}
    (hp : e.net.probes.get? seq = some p) : ProbeGen cfg e.core p := by
  have key : ∀ seq p, e.net.probes.get? seq = some p → ProbeGen cfg e.core p := by
    refine reachable_induct (P := fun e => ∀ seq p, e.net.probes.get? seq = some p → ProbeGen cfg e.core p) h ?_ ?_
    · intro now e0 h0 seq p hp
      rw [tryNew_eq h0] at hp
      have : ∀ e : Ep I A, e.refreshCache.net = e.net := by
        intro e; unfold refreshCache; split <;> rfl
      rw [this] at hp
      cases hp
    · intro e op hr hq
      refine step_micro_induct (Q := fun e => ∀ seq p, e.net.probes.get? seq = some p → ProbeGen cfg e.core p)
        hr op hq ?_
      intro late a b hg hn hq hm seq p hp hk
      have hacts := micro_acts hm
      cases micro_slot hm hn seq with
      | none h h' => rw [h'] at hp; cases hp
      | kept q q' h h' hs =>
        rw [h'] at hp; cases hp
        obtain ⟨h1, h2, h3⟩ := hq seq q h (hs.kind ▸ hk)
        rw [hs.target, hs.gen, hs.inc]
        exact ⟨h1, h2, h3.acts hg hacts h1⟩
      | started q ak h h' hw hlt =>
        rw [h'] at hp; cases hp
        rcases hw with ⟨node, now, _, _, rfl⟩ | ⟨m, now, ⟨hm1, hm2, hm3⟩, _, _, rfl⟩
        · cases hk
        · have hget : a.core.members.get m.id = some m := (Table.get_iff hg.inv.nodup).2 ⟨hm1, rfl⟩
          have hok := hg.inv.mem _ _ hget
          refine ⟨hm2, hok.gpos, GenOk.acts hg hacts hm2 ⟨hok.gen, ?_⟩⟩
          intro m' hm' hgen
          have hm'' : a.core.members.get m.id = some m' := hm'
          rw [hget] at hm''
          cases hm''
          exact ⟨Nat.le_refl _, rfl⟩
      | failed q now h h' hw he hlt => rw [h'] at hp; cases hp
      | done q d pl now h h' hd hw he hlt => rw [h'] at hp; cases hp
  exact key seq p hp

end Verif.Ep
