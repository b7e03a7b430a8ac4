import Verif.Proof.Micro
import Verif.Proof.Membership
/-
The invariant of the pending tables: probes, acks, relayed pings and stream intents.
-/
namespace Verif.Ep
open Verif Core Spec
variable {I A : Type} [DecidableEq I] [DecidableEq A]
variable {cfg : Cfg I A} {env : Env I A}

omit [DecidableEq I] [DecidableEq A] in
/-- A number the allocator returns is not zero, fits 32 bits and is not in use. -/
theorem allocLoop_spec {n : Net I A} {fuel s r : Nat} (h : allocLoop n fuel s = some r) :
    r ≠ 0 ∧ r < 2 ^ 32 ∧ seqInUse n r = false := by
  induction fuel generalizing s with
  | zero => simp [allocLoop] at h
  | succ fuel ih =>
    rw [allocLoop] at h
    split at h
    · exact ih h
    · rename_i hc
      simp only [not_or, Bool.not_eq_true] at hc
      cases h
      exact ⟨hc.1, Nat.mod_lt _ (by decide), hc.2⟩

omit [DecidableEq I] [DecidableEq A] in
theorem allocSeq_spec {n : Net I A} {r : Nat} (h : allocSeq n = some r) :
    r ≠ 0 ∧ r < 2 ^ 32 ∧ n.probes.get? r = none ∧ n.forwards.get? r = none ∧ n.acks.get? r = none := by
  obtain ⟨h1, h2, h3⟩ := allocLoop_spec h
  simp only [seqInUse, Map.contains, Bool.or_eq_false_iff, Option.isSome_eq_false_iff, Option.isNone_iff_eq_none] at h3
  exact ⟨h1, h2, h3.1.1, h3.1.2, h3.2⟩

/-- The ack entry of a probe. -/
def ackKindOf : ProbeKind → AckKind A
  | .detection => .probe
  | .ping => .ping

/-- What holds of every pending probe. -/
structure ProbeOk (cfg : Cfg I A) (p : Probe I A) : Prop where
  direct : ∀ d, p.phase = .direct d → d = p.sentAt + cfg.probeTimeout
  indirect : ∀ ex ps nb st d, p.phase = .indirect ex ps nb st d →
    ex = ps.length ∧ ps.Nodup ∧ nb.Nodup ∧ (∀ a ∈ nb, a ∈ ps) ∧ ps.length ≤ cfg.indirectChecks ∧
      p.kind = .detection ∧ d = p.failureDeadline ∧
      (∀ a ∈ ps, a ≠ cfg.advertise ∧ a ≠ p.target.addr)
  ping : p.kind = .ping → p.failureDeadline = p.sentAt + cfg.probeTimeout

/-- The invariant of the pending tables. -/
structure NetOk (cfg : Cfg I A) (n : Net I A) : Prop where
  pn : n.probes.NodupKeys
  an : n.acks.NodupKeys
  fn : n.forwards.NodupKeys
  tn : n.intents.NodupKeys
  pa : ∀ s p, n.probes.get? s = some p → ∃ a, n.acks.get? s = some a ∧ a.kind = ackKindOf p.kind
  fa : ∀ s f, n.forwards.get? s = some f → ∃ a, n.acks.get? s = some a ∧ a.kind = .forward f.replyTo
  ap : ∀ s a, n.acks.get? s = some a → (n.probes.get? s).isSome ∨ (n.forwards.get? s).isSome
  seq : ∀ s a, n.acks.get? s = some a → 0 < s ∧ s < 2 ^ 32
  ok : ∀ s p, n.probes.get? s = some p → ProbeOk cfg p
  cap : n.forwards.length ≤ cfg.maxIndirectForwards
  uniq : ∀ s s' f f', n.forwards.get? s = some f → n.forwards.get? s' = some f' →
    f.replyTo = f'.replyTo → f.requesterSeq = f'.requesterSeq → f.target = f'.target → s = s'
  ids : ∀ id i, n.intents.get? id = some i → 0 < id ∧ id < n.nextStreamId
  idpos : 0 < n.nextStreamId
  idx : n.intentIdx.Inv
  dl : ∀ id, n.intentIdx.deadlineOf id = (n.intents.get? id).map Intent.deadline

omit [DecidableEq I] [DecidableEq A] in
/-- A sequence number belongs to a probe or to a relayed ping, not both. -/
theorem NetOk.disjoint {n : Net I A} (h : NetOk cfg n) {s : Nat} {p : Probe I A} {f : Forward A}
    (hp : n.probes.get? s = some p) (hf : n.forwards.get? s = some f) : False := by
  obtain ⟨a, ha, hk⟩ := h.pa _ _ hp
  obtain ⟨b, hb, hk'⟩ := h.fa _ _ hf
  rw [ha] at hb; cases hb
  rw [hk] at hk'
  cases hpk : p.kind <;> rw [hpk] at hk' <;> cases hk'

omit [DecidableEq I] [DecidableEq A] in
theorem netOk_new : NetOk cfg ({} : Net I A) where
  pn := Map.nodup_nil
  an := Map.nodup_nil
  fn := Map.nodup_nil
  tn := Map.nodup_nil
  pa := by intro s p h; cases h
  fa := by intro s p h; cases h
  ap := by intro s p h; cases h
  seq := by intro s p h; cases h
  ok := by intro s p h; cases h
  cap := Nat.zero_le _
  uniq := by intro s s' f f' h; cases h
  ids := by intro s p h; cases h
  idpos := Nat.zero_lt_one
  idx := DeadlineIndex.inv_new
  dl := by intro id; rfl

omit [DecidableEq I] [DecidableEq A] in
/-- The invariant only looks at the tables. -/
theorem NetOk.congr {n n' : Net I A} (h : NetOk cfg n) (h1 : n'.probes = n.probes) (h2 : n'.acks = n.acks)
    (h3 : n'.forwards = n.forwards) (h4 : n'.intents = n.intents) (h5 : n'.intentIdx = n.intentIdx)
    (h6 : n.nextStreamId ≤ n'.nextStreamId) : NetOk cfg n' where
  pn := by rw [h1]; exact h.pn
  an := by rw [h2]; exact h.an
  fn := by rw [h3]; exact h.fn
  tn := by rw [h4]; exact h.tn
  pa := by rw [h1, h2]; exact h.pa
  fa := by rw [h3, h2]; exact h.fa
  ap := by rw [h1, h2, h3]; exact h.ap
  seq := by rw [h2]; exact h.seq
  ok := by rw [h1]; exact h.ok
  cap := by rw [h3]; exact h.cap
  uniq := by rw [h3]; exact h.uniq
  ids := by rw [h4]; intro id i hi; exact ⟨(h.ids id i hi).1, Nat.lt_of_lt_of_le (h.ids id i hi).2 h6⟩
  idpos := Nat.lt_of_lt_of_le h.idpos h6
  idx := by rw [h5]; exact h.idx
  dl := by rw [h4, h5]; exact h.dl

omit [DecidableEq I] [DecidableEq A] in
/-- Starting a probe. -/
theorem NetOk.start {n : Net I A} (h : NetOk cfg n) {seq : Nat} {p : Probe I A} {a : AckEntry A}
    (hs : allocSeq n = some seq) (hk : a.kind = ackKindOf p.kind) (hp : ProbeOk cfg p) :
    NetOk cfg { n with nextSeq := seq, probes := n.probes.insert seq p, acks := n.acks.insert seq a } := by
  obtain ⟨s1, s2, s3, s4, s5⟩ := allocSeq_spec hs
  refine { h with pn := Map.nodup_insert h.pn _ _, an := Map.nodup_insert h.an _ _, pa := ?_, fa := ?_, ap := ?_, seq := ?_, ok := ?_ }
  · intro s q hq
    dsimp only at hq ⊢
    rw [Map.get?_insert] at hq ⊢
    split at hq
    · rename_i e; cases hq; rw [if_pos e]; exact ⟨a, rfl, hk⟩
    · rename_i e; rw [if_neg e]; exact h.pa s q hq
  · intro s f hf
    dsimp only at hf ⊢
    have : seq ≠ s := by rintro rfl; rw [s4] at hf; cases hf
    rw [Map.get?_insert, if_neg this]; exact h.fa s f hf
  · intro s b hb
    dsimp only at hb ⊢
    rw [Map.get?_insert] at hb ⊢
    split at hb
    · rename_i e; rw [if_pos e]; exact .inl rfl
    · rename_i e; rw [if_neg e]; exact h.ap s b hb
  · intro s b hb
    dsimp only at hb
    rw [Map.get?_insert] at hb
    split at hb
    · rename_i e; subst e; exact ⟨by omega, s2⟩
    · exact h.seq s b hb
  · intro s q hq
    dsimp only at hq
    rw [Map.get?_insert] at hq
    split at hq
    · cases hq; exact hp
    · exact h.ok s q hq

omit [DecidableEq I] [DecidableEq A] in
/-- Changing a probe without changing its kind. -/
theorem NetOk.modify {n : Net I A} (h : NetOk cfg n) (seq : Nat) (f : Probe I A → Probe I A)
    (hf : ∀ p, n.probes.get? seq = some p → (f p).kind = p.kind ∧ ProbeOk cfg (f p)) :
    NetOk cfg { n with probes := n.probes.modify seq f } := by
  refine { h with pn := Map.nodup_modify h.pn _ _, pa := ?_, ap := ?_, ok := ?_ }
  · intro s q hq
    dsimp only at hq ⊢
    rw [Map.get?_modify] at hq
    split at hq
    · rename_i e; subst e
      cases hg : n.probes.get? seq with
      | none => rw [hg] at hq; cases hq
      | some p =>
        rw [hg] at hq; cases hq
        rw [(hf p hg).1]
        exact h.pa _ _ hg
    · exact h.pa s q hq
  · intro s b hb
    dsimp only at hb ⊢
    rw [Map.get?_modify]
    rcases h.ap s b hb with h' | h'
    · left; split
      · simpa using h'
      · exact h'
    · exact .inr h'
  · intro s q hq
    dsimp only at hq
    rw [Map.get?_modify] at hq
    split at hq
    · rename_i e; subst e
      cases hg : n.probes.get? seq with
      | none => rw [hg] at hq; cases hq
      | some p => rw [hg] at hq; cases hq; exact (hf p hg).2
    · exact h.ok s q hq

omit [DecidableEq I] [DecidableEq A] in
/-- Ending a probe. -/
theorem NetOk.endProbe {n : Net I A} (h : NetOk cfg n) {seq : Nat} {p : Probe I A}
    (hp : n.probes.get? seq = some p) :
    NetOk cfg { n with probes := n.probes.erase seq, acks := n.acks.erase seq } := by
  refine { h with pn := Map.nodup_erase h.pn _, an := Map.nodup_erase h.an _, pa := ?_, fa := ?_, ap := ?_, seq := ?_, ok := ?_ }
  · intro s q hq
    dsimp only at hq ⊢
    rw [Map.get?_erase] at hq ⊢
    split at hq
    · cases hq
    · rename_i e; rw [if_neg e]; exact h.pa s q hq
  · intro s f hf
    dsimp only at hf ⊢
    have : seq ≠ s := by rintro rfl; exact h.disjoint hp hf
    rw [Map.get?_erase, if_neg this]; exact h.fa s f hf
  · intro s b hb
    dsimp only at hb ⊢
    rw [Map.get?_erase] at hb ⊢
    split at hb
    · cases hb
    · rename_i e; rw [if_neg e]; exact h.ap s b hb
  · intro s b hb
    dsimp only at hb
    rw [Map.get?_erase] at hb
    split at hb
    · cases hb
    · exact h.seq s b hb
  · intro s q hq
    dsimp only at hq
    rw [Map.get?_erase] at hq
    split at hq
    · cases hq
    · exact h.ok s q hq

omit [DecidableEq I] [DecidableEq A] in
theorem NetOk.removeIntent {n : Net I A} (h : NetOk cfg n) (id : Nat) : NetOk cfg (removeIntent n id) := by
  unfold Ep.removeIntent
  refine { h with tn := Map.nodup_erase h.tn _, idx := DeadlineIndex.inv_set h.idx id none, ids := ?_, dl := ?_ }
  · intro k i hi
    dsimp only at hi
    rw [Map.get?_erase] at hi
    split at hi
    · cases hi
    · exact h.ids k i hi
  · intro k
    dsimp only
    rw [DeadlineIndex.deadlineOf_set, Map.get?_erase]
    split
    · rfl
    · exact h.dl k

omit [DecidableEq I] [DecidableEq A] in
theorem NetOk.insertIntent {n : Net I A} (h : NetOk cfg n) (i : Intent A) :
    NetOk cfg (insertIntent { n with nextStreamId := n.nextStreamId + 1 } n.nextStreamId i) := by
  unfold Ep.insertIntent
  refine { h with tn := Map.nodup_insert h.tn _ _, idx := DeadlineIndex.inv_set h.idx n.nextStreamId (some i.deadline), ids := ?_, idpos := ?_, dl := ?_ }
  · intro k j hj
    dsimp only at hj ⊢
    rw [Map.get?_insert] at hj
    split at hj
    · rename_i e; subst e; exact ⟨h.idpos, Nat.lt_succ_self _⟩
    · exact ⟨(h.ids k j hj).1, Nat.lt_succ_of_lt (h.ids k j hj).2⟩
  · exact Nat.succ_pos _
  · intro k
    dsimp only
    rw [DeadlineIndex.deadlineOf_set, Map.get?_insert]
    split
    · rfl
    · exact h.dl k

omit [DecidableEq I] [DecidableEq A] in
theorem NetOk.retireFallback {n : Net I A} (h : NetOk cfg n) (seq : Nat) : NetOk cfg (retireFallback n seq) := by
  refine h.modify seq _ (fun p hp => ?_)
  have hok := h.ok _ _ hp
  cases hph : p.phase with
  | direct d => exact ⟨rfl, hok⟩
  | indirect ex ps nb st d =>
    refine ⟨rfl, ⟨fun d' hd => by simp at hd, ?_, hok.ping⟩⟩
    intro ex' ps' nb' st' d' he
    cases he
    exact hok.indirect _ _ _ _ _ hph

omit [DecidableEq I] [DecidableEq A] in
theorem NetOk.fwd {n : Net I A} (h : NetOk cfg n) {seq : Nat} {f : Forward A} {a : AckEntry A}
    (hs : allocSeq n = some seq) (hk : a.kind = .forward f.replyTo)
    (hl : n.forwards.length < cfg.maxIndirectForwards)
    (hnew : ∀ g ∈ n.forwards, ¬ (g.2.replyTo = f.replyTo ∧ g.2.requesterSeq = f.requesterSeq ∧ g.2.target = f.target)) :
    NetOk cfg { n with nextSeq := seq, acks := n.acks.insert seq a, forwards := n.forwards.insert seq f } := by
  obtain ⟨s1, s2, s3, s4, s5⟩ := allocSeq_spec hs
  refine { h with fn := Map.nodup_insert h.fn _ _, an := Map.nodup_insert h.an _ _, pa := ?_, fa := ?_, ap := ?_, seq := ?_, cap := ?_, uniq := ?_ }
  · intro s q hq
    dsimp only at hq ⊢
    have : seq ≠ s := by rintro rfl; rw [s3] at hq; cases hq
    rw [Map.get?_insert, if_neg this]; exact h.pa s q hq
  · intro s g hg
    dsimp only at hg ⊢
    rw [Map.get?_insert] at hg ⊢
    split at hg
    · rename_i e; cases hg; rw [if_pos e]; exact ⟨a, rfl, hk⟩
    · rename_i e; rw [if_neg e]; exact h.fa s g hg
  · intro s b hb
    dsimp only at hb ⊢
    rw [Map.get?_insert] at hb ⊢
    split at hb
    · rename_i e; rw [if_pos e]; exact .inr rfl
    · rename_i e; rw [if_neg e]; exact h.ap s b hb
  · intro s b hb
    dsimp only at hb
    rw [Map.get?_insert] at hb
    split at hb
    · rename_i e; subst e; exact ⟨by omega, s2⟩
    · exact h.seq s b hb
  · dsimp only
    rw [Map.length_insert_new s4]; omega
  · intro s s' g g' hg hg' e1 e2 e3
    dsimp only at hg hg'
    rw [Map.get?_insert] at hg hg'
    split at hg
    · rename_i e; subst e; cases hg
      split at hg'
      · rename_i e; exact e
      · exact absurd ⟨e1.symm, e2.symm, e3.symm⟩ (hnew _ (Map.mem_of_get? hg'))
    · split at hg'
      · rename_i e; subst e; cases hg'
        exact absurd ⟨e1, e2, e3⟩ (hnew _ (Map.mem_of_get? hg))
      · exact h.uniq s s' g g' hg hg' e1 e2 e3

omit [DecidableEq I] [DecidableEq A] in
theorem NetOk.fwdDone {n : Net I A} (h : NetOk cfg n) {seq : Nat} {f : Forward A}
    (hf : n.forwards.get? seq = some f) :
    NetOk cfg { n with forwards := n.forwards.erase seq, acks := n.acks.erase seq } := by
  refine { h with fn := Map.nodup_erase h.fn _, an := Map.nodup_erase h.an _, pa := ?_, fa := ?_, ap := ?_, seq := ?_, cap := ?_, uniq := ?_ }
  · intro s q hq
    dsimp only at hq ⊢
    have : seq ≠ s := by rintro rfl; exact h.disjoint hq hf
    rw [Map.get?_erase, if_neg this]; exact h.pa s q hq
  · intro s g hg
    dsimp only at hg ⊢
    rw [Map.get?_erase] at hg ⊢
    split at hg
    · cases hg
    · rename_i e; rw [if_neg e]; exact h.fa s g hg
  · intro s b hb
    dsimp only at hb ⊢
    rw [Map.get?_erase] at hb ⊢
    split at hb
    · cases hb
    · rename_i e; rw [if_neg e]; exact h.ap s b hb
  · intro s b hb
    dsimp only at hb
    rw [Map.get?_erase] at hb
    split at hb
    · cases hb
    · exact h.seq s b hb
  · exact Nat.le_trans (List.length_filter_le _ _) h.cap
  · intro s s' g g' hg hg' e1 e2 e3
    dsimp only at hg hg'
    rw [Map.get?_erase] at hg hg'
    split at hg
    · cases hg
    · split at hg'
      · cases hg'
      · exact h.uniq s s' g g' hg hg' e1 e2 e3

theorem terminate_net (e : Ep I A) (seq now : Nat) (p : Probe I A) (hp : e.net.probes.get? seq = some p) :
    (e.probeTerminateFailure cfg env seq now).net = discardProbe e.net seq p := by
  unfold probeTerminateFailure
  rw [hp]
  dsimp only
  (repeat' split) <;> rfl

theorem complete_net (e : Ep I A) (seq now : Nat) (d : Bool) (pl : Bytes) (p : Probe I A)
    (hp : e.net.probes.get? seq = some p) (hd : now < p.failureDeadline) :
    (e.completeProbeSuccess cfg env seq d pl now).net =
      { e.net with probes := e.net.probes.erase seq, acks := e.net.acks.erase seq } := by
  unfold completeProbeSuccess
  rw [hp]
  dsimp only
  rw [if_neg (by omega)]
  (repeat' split) <;> rfl

theorem NetOk.discard {n : Net I A} (h : NetOk cfg n) {seq : Nat} {p : Probe I A}
    (hp : n.probes.get? seq = some p) : NetOk cfg (discardProbe n seq p) := by
  unfold discardProbe
  dsimp only
  split
  · exact (h.endProbe hp).removeIntent _
  · exact h.endProbe hp

omit [DecidableEq A] in
theorem sendAll_net (e : Ep I A) (targets : List A) (msgs : List (Message I A)) :
    ∃ ts, (e.sendAll targets msgs).net = { e.net with transmits := e.net.transmits ++ ts } ∧
      (e.sendAll targets msgs).leaveFlush = e.leaveFlush ∧
      ∀ t ∈ ts, ∃ dst, datagram dst msgs = some t := by
  unfold sendAll
  induction targets generalizing e with
  | nil => exact ⟨[], by simp, rfl, by simp⟩
  | cons x l ih =>
    rw [List.foldl_cons]
    cases hd : datagram x msgs with
    | none => exact ih e
    | some t =>
      obtain ⟨ts, h1, h2, h3⟩ := ih (e.send t)
      dsimp only at h1 h2 ⊢
      refine ⟨t :: ts, ?_, h2, ?_⟩
      · rw [h1]; simp [send]
      · intro u hu
        rcases List.mem_cons.1 hu with rfl | hu
        · exact ⟨x, hd⟩
        · exact h3 u hu

theorem drainGossip_net (e : Ep I A) : (e.drainGossip cfg env).1.net = e.net ∧
    (e.drainGossip cfg env).1.leaveFlush = e.leaveFlush := by
  unfold drainGossip
  dsimp only
  split
  · exact ⟨rfl, rfl⟩
  · split <;> exact ⟨rfl, rfl⟩

theorem farewellPayloads_net (e : Ep I A) (d : BadState I) (f : Option Bytes) :
    (e.farewellPayloads cfg env d f).1.net = e.net := by
  unfold farewellPayloads
  dsimp only
  split <;> rfl

theorem sendFarewells_net (e : Ep I A) (l : List A) (ps : List Bytes) (d : BadState I) :
    (e.sendFarewells l ps d).net = { e.net with transmits := e.net.transmits ++ l.map (fun dst =>
      if ps.isEmpty then .packet dst (.dead d) else .compound dst (ps.map Message.userData ++ [.dead d])) } := by
  unfold sendFarewells
  induction l generalizing e with
  | nil => simp
  | cons x l ih =>
    rw [List.foldl_cons, ih]
    split <;> simp [send]

/-- Leaving clears the intents and the transmits, then queues the farewells. -/
theorem leaveWith_net (e : Ep I A) (now : Nat) (f : Option Bytes) (hr : e.core.lifecycle = .running) :
    ∃ ts, (e.leaveWith cfg env now f).net =
      { e.net with intents := [], intentIdx := e.net.intentIdx.clear, transmits := ts } := by
  unfold leaveWith
  rw [if_neg (by simp [hr])]
  dsimp only
  split
  · exact ⟨[], rfl⟩
  · exact ⟨_, by rw [sendFarewells_net]; dsimp only; rw [farewellPayloads_net]⟩

theorem NetOk.clear {n : Net I A} (h : NetOk cfg n) (ts : List (Transmit I A)) :
    NetOk cfg { n with intents := [], intentIdx := n.intentIdx.clear, transmits := ts } := by
  refine { h with tn := Map.nodup_nil, idx := DeadlineIndex.inv_clear h.idx, ids := ?_, dl := ?_ }
  · intro id i hi; cases hi
  · intro id; rfl

theorem pollTransmit_net (e : Ep I A) : e.pollTransmit.1.net = { e.net with transmits := e.net.transmits.tail } := by
  unfold pollTransmit
  split
  · rename_i h; rw [h]; dsimp only; rw [List.tail_nil, ← h]
  · rename_i t rest h
    dsimp only
    split
    · simp [h]
    · split <;> simp [h, emit]

theorem startWhy_ok {op : Op I A} {e : Ep I A} {p : Probe I A} {a : AckEntry A} (h : StartWhy cfg op e p a) :
    a.kind = ackKindOf p.kind ∧ ProbeOk cfg p := by
  rcases h with ⟨node, now, _, hk, rfl⟩ | ⟨m, now, _, _, hk, rfl⟩
  · refine ⟨hk, ⟨?_, ?_, ?_⟩⟩
    · intro d hd; cases hd; rfl
    · intro ex ps nb st d hd; cases hd
    · intro _; rfl
  · refine ⟨hk, ⟨?_, ?_, ?_⟩⟩
    · intro d hd; cases hd; rfl
    · intro ex ps nb st d hd; cases hd
    · intro h; cases h

theorem NetOk.nack {e : Ep I A} (h : NetOk cfg e.net) (src : A) (seq now : Nat) :
    NetOk cfg (e.handleNack src seq now).net := by
  unfold handleNack
  split
  · exact h
  · rename_i p hp
    split
    · exact h
    · split
      · rename_i ex ps nb st d hph
        split
        · rename_i hc
          refine h.modify seq _ (fun q hq => ?_)
          rw [hp] at hq; cases hq
          have hok := h.ok _ _ hp
          refine ⟨rfl, ⟨fun d' hd => by simp at hd, ?_, hok.ping⟩⟩
          intro ex' ps' nb' st' d' he
          cases he
          obtain ⟨h1, h2, h3, h4, h5⟩ := hok.indirect _ _ _ _ _ hph
          refine ⟨h1, h2, ?_, ?_, h5⟩
          · rw [List.nodup_append]
            exact ⟨h3, by simp, by rintro a ha b hb rfl; simp at hb; subst hb; exact hc.2 ha⟩
          · intro a ha
            rcases List.mem_append.1 ha with ha | ha
            · exact h4 a ha
            · simp at ha; subst ha; exact hc.1
        · exact h
      · exact h

/-- Every elementary step keeps the invariant of the tables. -/
theorem NetOk.micro {op : Op I A} {late : Bool} {e e' : Ep I A} (h : NetOk cfg e.net) (hm : Micro cfg env op late e e') :
    NetOk cfg e'.net := by
  cases hm with
  | core x hx => exact h
  | aux _ hc hn hf hu => exact h.congr hn.probes hn.acks hn.forwards hn.intents hn.intentIdx (Nat.le_of_eq hn.nextStreamId.symm)
  | send t ht => exact h.congr rfl rfl rfl rfl rfl (Nat.le_refl _)
  | dial id peer d hr hd => exact h
  | start seq p a hs hr hw hlt => exact h.start hs (startWhy_ok hw).1 (startWhy_ok hw).2
  | alloc seq hs => exact h.congr rfl rfl rfl rfl rfl (Nat.le_refl _)
  | dispatched seq b hlt => exact h.modify seq _ (fun p hp => ⟨rfl, ⟨(h.ok _ _ hp).direct, (h.ok _ _ hp).indirect, (h.ok _ _ hp).ping⟩⟩)
  | fail seq p now hp hw hr hlt => rw [terminate_net e seq now p hp]; exact h.discard hp
  | done seq p direct payload now hp hd hw hr hlt => rw [complete_net e seq now _ _ p hp hd]; exact h.endProbe hp
  | nack src seq now ho => exact h.nack src seq now
  | fan seq p now peers st ho hp hk hph hd hf hl hnd ha hfit hlt =>
    refine NetOk.congr (n := { e.net with probes := e.net.probes.modify seq (fun p =>
        { p with dispatched := true, phase := .indirect peers.length peers [] st p.failureDeadline }) }) ?_ rfl rfl rfl rfl rfl (Nat.le_refl _)
    refine h.modify seq _ (fun q hq => ?_)
    rw [hp] at hq; cases hq
    refine ⟨rfl, ⟨fun d' hd => by simp at hd, ?_, (h.ok _ _ hp).ping⟩⟩
    intro ex' ps' nb' st' d' he
    cases he
    refine ⟨rfl, hnd, List.nodup_nil, by simp, hl, hk, rfl, ?_⟩
    intro a hm
    exact (mem_relayCandidates.1 (ha a hm)).2
  | fwd seq src p now ho hs hsrc hl hnew => exact h.fwd hs rfl hl hnew
  | fwdAnswer seq f hf payload now ho hd =>
    exact (h.fwdDone hf).congr rfl rfl rfl rfl rfl (Nat.le_refl _)
  | fwdExpire seq f hf now ho hd =>
    exact (h.fwdDone hf).congr rfl rfl rfl rfl rfl (Nat.le_refl _)
  | intent i hr => exact h.insertIntent i
  | intentDial i hr hw => exact h.insertIntent i
  | skipId => exact h.congr rfl rfl rfl rfl rfl (Nat.le_succ _)
  | unintent id hw => exact h.removeIntent id
  | retire seq => exact h.retireFallback seq
  | gossip targets now ho hr =>
    obtain ⟨ts, h1, _⟩ := sendAll_net (e.drainGossip cfg env).1 targets (e.drainGossip cfg env).2
    rw [h1, (drainGossip_net e).1]
    exact h.congr rfl rfl rfl rfl rfl (Nat.le_refl _)
  | leave now f ho hr =>
    obtain ⟨ts, h1⟩ := leaveWith_net (cfg := cfg) (env := env) e now f hr
    rw [h1]; exact h.clear ts
  | poll ho => rw [pollTransmit_net]; exact h.congr rfl rfl rfl rfl rfl (Nat.le_refl _)

omit [DecidableEq I] [DecidableEq A] in
theorem NetOk.tables {n : Net I A} (h : NetOk cfg n) : Tables n := by
  refine ⟨h.pn, h.fn, fun s f a r hf ha hk => ?_⟩
  obtain ⟨b, hb, hk'⟩ := h.fa _ _ hf
  rw [ha] at hb; cases hb
  rw [hk] at hk'; cases hk'; rfl

end Verif.Ep
