import Verif.Proof.Tls
import Verif.Proof.CoordAuth
/-
The exchange over TLS, seen as the exchange over plain TCP: the plaintext rustls surfaces takes the place of the bytes
of the connection, the plaintext accepted for sending that of the bytes written.
-/
namespace Verif
open Spec

theorem accepted_append {C : Type} (t u : List (TlsEv C))
    (h : ∀ e ∈ u, (∀ bs, e ≠ .staged bs) ∧ e ≠ .cleared) : accepted (t ++ u) = accepted t := by
  induction u generalizing t with
  | nil => rw [List.append_nil]
  | cons e u ih =>
    have h1 : t ++ e :: u = (t ++ [e]) ++ u := by simp
    rw [h1, ih _ (fun e' he => h e' (List.mem_cons_of_mem _ he)), accepted_snoc]
    have h2 := h e List.mem_cons_self
    cases e with
    | staged bs => exact absurd rfl (h2.1 bs)
    | cleared => exact absurd rfl h2.2
    | _ => rfl

theorem owed_fold {C : Type} (t : List (TlsEv C)) : ∀ o a : Bytes, o.length ≤ a.length →
    (t.foldl unsentStep o).length ≤ (t.foldl acceptedStep a).length := by
  induction t with
  | nil => intro o a h; exact h
  | cons e t ih =>
    intro o a h
    refine ih _ _ ?_
    cases e <;> simp only [unsentStep, acceptedStep, List.length_append, List.length_drop, List.length_nil] <;> omega

theorem unsent_accepted {C : Type} (t : List (TlsEv C)) : (unsent t).length ≤ (accepted t).length :=
  owed_fold t [] [] (Nat.le_refl _)

namespace TlsRecords
variable {R : Rustls}

/-- No call of this list sets the capacity. -/
def NoCap (ops : List Op) : Prop := ∀ op ∈ ops, ∀ m, op ≠ .setSendCapacity m

/-- `s'` comes from `s` by calls that leave the capacity alone. -/
def Via (s s' : TlsRecords R) : Prop := ∃ ops, NoCap ops ∧ s' = s.run ops

theorem Via.refl (s : TlsRecords R) : Via s s := ⟨[], by simp [NoCap], rfl⟩

theorem Via.trans {a b c : TlsRecords R} (h : Via a b) (g : Via b c) : Via a c := by
  obtain ⟨o1, h1, rfl⟩ := h
  obtain ⟨o2, h2, rfl⟩ := g
  refine ⟨o1 ++ o2, fun op ho => ?_, by simp [TlsRecords.run]⟩
  rcases List.mem_append.1 ho with h | h
  · exact h1 op h
  · exact h2 op h

theorem Via.one (s : TlsRecords R) (op : Op) (h : ∀ m, op ≠ .setSendCapacity m) : Via s (s.step op) :=
  ⟨[op], by simpa [NoCap] using h, rfl⟩

theorem Via.kept {s s' : TlsRecords R} (h : Via s s') (k : Kept s) : Kept s' := by
  obtain ⟨ops, _, rfl⟩ := h
  exact k.run ops

theorem step_limit (s : TlsRecords R) (op : Op) (h : ∀ m, op ≠ .setSendCapacity m) :
    (s.step op).sendLimit = s.sendLimit := by
  cases op with
  | intake d => exact (s.intake_spec d).2.1
  | transmit => exact (transmitLoop_len _ _ _).2
  | read => rfl
  | write bs => simp only [step, TlsRecords.write]; split <;> rfl
  | setSendCapacity m => exact absurd rfl (h m)
  | sendCloseNotify => exact (flushClose_len { s with closeRequested := true }).2
  | clearOutbound => rfl

theorem Via.limit {s s' : TlsRecords R} (h : Via s s') : s'.sendLimit = s.sendLimit := by
  obtain ⟨ops, h1, rfl⟩ := h
  induction ops generalizing s with
  | nil => rfl
  | cons op ops ih =>
    exact (ih (s := s.step op) (fun o ho => h1 o (List.mem_cons_of_mem _ ho))).trans
      (s.step_limit op (h1 op List.mem_cons_self))

theorem process_closed (s : TlsRecords R) (h : s.peerClosed = true) : s.process.1.peerClosed = true := by
  unfold TlsRecords.process
  split
  · exact h
  · simp [h]

theorem finish_closed (s : TlsRecords R) (fed : Bool) (h : s.peerClosed = true) : (s.finishIntake fed).1.peerClosed = true := by
  unfold finishIntake
  split
  · exact h
  · have := s.process_closed h
    split <;> (next hp => rw [hp] at this; exact this)

theorem intakeLoop_closed (fuel : Nat) : ∀ (s : TlsRecords R) (rest : Bytes) (n : Nat) (fed : Bool), s.peerClosed = true →
    (intakeLoop fuel s rest n fed).1.peerClosed = true := by
  induction fuel with
  | zero => intro s rest n fed h; exact h
  | succ fuel ih =>
    intro s rest n fed h
    simp only [TlsRecords.intakeLoop]
    split
    · exact s.finish_closed _ h
    · split
      · exact h
      · exact finish_closed _ _ h
      · next c k _ =>
        have := process_closed ({ s with conn := c, trace := s.trace ++ [TlsEv.fed (rest.take (k + 1))] } : TlsRecords R) h
        split
        · next hp => rw [hp] at this; exact this
        · next hp => rw [hp] at this; exact ih _ _ _ _ this

theorem flushPending_closed (s : TlsRecords R) : s.flushPending.peerClosed = s.peerClosed := by
  unfold TlsRecords.flushPending; split <;> rfl

theorem flushClose_closed (s : TlsRecords R) : s.flushClose.peerClosed = s.peerClosed := by
  unfold TlsRecords.flushClose; simp only []; split <;> exact s.flushPending_closed

theorem transmitLoop_closed (fuel : Nat) : ∀ (s : TlsRecords R) (out : Bytes),
    (transmitLoop fuel s out).1.peerClosed = s.peerClosed := by
  induction fuel with
  | zero => intro s out; rfl
  | succ fuel ih =>
    intro s out
    simp only [TlsRecords.transmitLoop]
    split
    · exact s.flushClose_closed
    · exact (ih _ _).trans s.flushClose_closed

theorem Via.closed {s s' : TlsRecords R} (h : Via s s') (hc : s.peerClosed = true) : s'.peerClosed = true := by
  obtain ⟨ops, hn, rfl⟩ := h
  clear hn
  induction ops generalizing s with
  | nil => exact hc
  | cons op ops ih =>
    refine ih (s := s.step op) ?_
    cases op with
    | intake d => exact intakeLoop_closed _ _ _ _ _ hc
    | transmit => exact (transmitLoop_closed _ _ _).trans hc
    | read => exact hc
    | write bs => simp only [step, TlsRecords.write]; split <;> exact hc
    | setSendCapacity m => exact hc
    | sendCloseNotify => exact (flushClose_closed _).trans hc
    | clearOutbound => exact hc

theorem flushPending_accepted (s : TlsRecords R) : accepted s.flushPending.trace = accepted s.trace := by
  unfold TlsRecords.flushPending
  split
  · exact accepted_append _ _ (by simp)
  · rfl

theorem flushClose_accepted (s : TlsRecords R) : accepted s.flushClose.trace = accepted s.trace := by
  unfold TlsRecords.flushClose
  simp only []
  split
  · exact (accepted_append _ _ (by simp)).trans s.flushPending_accepted
  · exact s.flushPending_accepted

theorem sendCloseNotify_accepted (s : TlsRecords R) : accepted s.sendCloseNotify.trace = accepted s.trace :=
  flushClose_accepted _

theorem transmitLoop_accepted (fuel : Nat) : ∀ (s : TlsRecords R) (out : Bytes),
    accepted (transmitLoop fuel s out).1.trace = accepted s.trace := by
  induction fuel with
  | zero => intro s out; rfl
  | succ fuel ih =>
    intro s out
    simp only [TlsRecords.transmitLoop]
    split
    · exact s.flushClose_accepted
    · exact (ih _ _).trans s.flushClose_accepted

theorem intake_accepted (s : TlsRecords R) (d : Bytes) : accepted (s.intake d).1.trace = accepted s.trace := by
  obtain ⟨_, _, _, t, h, h', _⟩ := s.intake_spec d
  rw [h]
  refine accepted_append _ _ (fun e he => ?_)
  rcases h' e he with ⟨bs, rfl, _⟩ | ⟨bs, rfl⟩ <;> simp

theorem write_accepted (s : TlsRecords R) (bs : Bytes) (h : s.pending.length + bs.length ≤ s.sendLimit) :
    accepted (s.write bs).1.trace = accepted s.trace ++ bs := by
  unfold TlsRecords.write
  rw [if_neg (by omega)]
  exact accepted_snoc _ _
end TlsRecords

namespace LabeledTls
variable {R : Rustls}

/-- The pipe as plain TCP would have it. -/
def plain (s : LabeledTls R) : Labeled := ⟨s.gate, [], accepted s.inner.trace, s.prefixEmitted, s.postLabelTail⟩

/-- A later state. -/
structure LKin (s s' : LabeledTls R) : Prop where
  lab : s.gate.isValidating = false → s'.gate.isValidating = false
  passed : s.passed <+: s'.passed
  via : TlsRecords.Via s.inner s'.inner

theorem LKin.refl (s : LabeledTls R) : LKin s s := ⟨id, List.prefix_refl _, .refl _⟩

theorem LKin.trans {a b c : LabeledTls R} (h : LKin a b) (g : LKin b c) : LKin a c :=
  ⟨fun x => g.lab (h.lab x), h.passed.trans g.passed, h.via.trans g.via⟩

theorem LKin.inner (s : LabeledTls R) (i : TlsRecords R) (h : TlsRecords.Via s.inner i) : LKin s { s with inner := i } :=
  ⟨id, List.prefix_refl _, h⟩

theorem LKin.flushLabel (s : LabeledTls R) : LKin s s.flushLabel := by
  unfold LabeledTls.flushLabel
  split
  · exact .refl s
  · simp only []
    split
    · exact ⟨id, List.prefix_refl _, .refl _⟩
    · exact ⟨id, List.prefix_refl _, .one _ (.write _) (by simp)⟩

theorem consume_validating (g : LabelGate) (p : Bytes) (h : g.isValidating = false) :
    (g.consumeInbound p).1.isValidating = false := by
  have hq : ∀ g : LabelGate, g.queuePrefix.label = g.label ∧ g.queuePrefix.role = g.role ∧
      g.queuePrefix.validated = g.validated := by
    intro g; unfold LabelGate.queuePrefix; split <;> simp
  unfold LabelGate.isValidating at h
  unfold LabelGate.consumeInbound
  split
  · simp only [LabelGate.isValidating, hq]; simp
  · simp only []
    split
    · simp only [LabelGate.isValidating, hq]; simp
    · exact h
    · exact h

theorem LKin.consumeLabel (s : LabeledTls R) : LKin s s.consumeLabel.1 := by
  unfold LabeledTls.consumeLabel
  have h0 : LKin s { s with inner := s.inner.read.1, passed := s.passed ++ s.inner.read.2 } :=
    ⟨id, List.prefix_append _ _, .one _ .read (by simp)⟩
  simp only []
  split
  · exact h0
  · have hg := consume_validating s.gate s.inner.read.2
    refine h0.trans ?_
    split
    · next g t heq =>
      rw [heq] at hg
      refine LKin.trans ?_ (LKin.flushLabel _)
      exact ⟨hg, List.prefix_refl _, .refl _⟩
    · next g heq => rw [heq] at hg; exact ⟨hg, List.prefix_refl _, .refl _⟩
    · next g heq => rw [heq] at hg; exact ⟨hg, List.prefix_refl _, .refl _⟩

theorem LKin.recv (s : LabeledTls R) (d : Bytes) : LKin s (s.recv d).1 := by
  have h0 : LKin s { s with inner := (s.inner.intake d).1 } := LKin.inner s _ (.one _ (.intake d) (by simp))
  unfold LabeledTls.recv
  simp only []
  split
  · exact h0
  · split
    · split
      · exact h0.trans (LKin.consumeLabel _)
      · exact h0.trans (LKin.consumeLabel _)
    · exact h0

theorem LKin.read (s : LabeledTls R) : LKin s s.read.1 := ⟨id, List.prefix_append _ _, .one _ .read (by simp)⟩
theorem LKin.discard (s : LabeledTls R) : LKin s s.discard := ⟨id, List.prefix_refl _, .one _ .read (by simp)⟩
theorem LKin.write (s : LabeledTls R) (bs : Bytes) : LKin s (s.write bs).1 := .inner s _ (.one _ (.write bs) (by simp))
theorem LKin.transmit (s : LabeledTls R) : LKin s s.transmit.1 := .inner s _ (.one _ .transmit (by simp))
theorem LKin.sendCloseNotify (s : LabeledTls R) : LKin s s.sendCloseNotify := .inner s _ (.one _ .sendCloseNotify (by simp))
theorem LKin.clearOutbound (s : LabeledTls R) : LKin s s.clearOutbound := ⟨id, List.prefix_refl _, .one _ .clearOutbound (by simp)⟩

/-- The plaintext one delivery surfaces. -/
def surfaced (s : LabeledTls R) (d : Bytes) : Bytes := (R.drain (s.inner.intake d).1.conn).2

/-- Should a delivery validate the label, there is room for this side's header. -/
def Roomy (s : LabeledTls R) : Prop :=
  ∀ p g tail, s.gate.validated = false → s.gate.consumeInbound p = (g, .validated tail) → s.prefixEmitted = false →
    g.outboundPrefix.length = 0 ∨ s.inner.pending.length + g.outboundPrefix.length ≤ s.inner.sendLimit

theorem plain_flushLabel (s : LabeledTls R)
    (h : s.prefixEmitted = false → s.gate.outboundPrefix.length = 0 ∨
      s.inner.pending.length + s.gate.outboundPrefix.length ≤ s.inner.sendLimit) :
    s.flushLabel.plain = s.plain.flushLabel := by
  unfold LabeledTls.flushLabel Labeled.flushLabel
  by_cases hp : s.prefixEmitted = true
  · simp [hp, plain]
  · have hp' : s.prefixEmitted = false := by simpa using hp
    have := h hp'
    by_cases hz : s.gate.outboundPrefix.length = 0
    · simp [hp', plain, LabelGate.takePrefix, hz]
    · have hw := s.inner.write_accepted s.gate.outboundPrefix (by omega)
      simp [hp', plain, LabelGate.takePrefix, hz, hw]

theorem recv_failed (s : LabeledTls R) (d : Bytes) (h : (s.inner.intake d).2 = .failed) :
    (s.recv d).2 = .failed ∧ (s.recv d).1.plain = s.plain ∧ (s.recv d).1.passed = s.passed := by
  unfold LabeledTls.recv
  simp only [h, if_true]
  refine ⟨trivial, ?_, trivial⟩
  simp only [plain, s.inner.intake_accepted d]

theorem recv_valid (s : LabeledTls R) (d : Bytes) (h : (s.inner.intake d).2 ≠ .failed) (hv : s.gate.validated = true) :
    s.recv d = ({ s with inner := (s.inner.intake d).1 }, (s.inner.intake d).2) := by
  unfold LabeledTls.recv
  simp [h, hv]

theorem recv_unval (s : LabeledTls R) (d : Bytes) (h : (s.inner.intake d).2 ≠ .failed) (hv : s.gate.validated = false)
    (hr : s.Roomy) :
    (s.recv d).1.plain = (s.plain.recv (s.surfaced d)).1 ∧ (s.recv d).1.passed = s.passed ++ s.surfaced d ∧
    ((s.plain.recv (s.surfaced d)).2 = true → (s.recv d).2 = .failed) ∧
    ((s.plain.recv (s.surfaced d)).2 = false → (s.recv d).2 = (s.inner.intake d).2) ∧
    (R.drain (s.recv d).1.inner.conn).2 = [] := by
  have hacc := s.inner.intake_accepted d
  have hsp := s.inner.intake_spec d
  have hdd := R.drain_drain (s.inner.intake d).1.conn
  have hR := hr (s.surfaced d)
  unfold surfaced at *
  unfold LabeledTls.recv Labeled.recv
  have hv' : s.plain.gate.validated = false := hv
  simp only [h, if_false, hv, hv', Bool.not_false, if_true]
  unfold LabeledTls.consumeLabel Labeled.consumeLabel
  simp only [TlsRecords.read]
  have e1 : s.plain.inbound = [] := rfl
  simp only [e1, List.nil_append]
  by_cases he : (R.drain (s.inner.intake d).1.conn).2.isEmpty = true
  · simp only [he, if_true, Bool.false_eq_true, if_false]
    exact ⟨by simp [plain, hacc], trivial, by simp, by simp, hdd⟩
  · have he' : (R.drain (s.inner.intake d).1.conn).2.isEmpty = false := by simpa using he
    simp only [he', Bool.false_eq_true, if_false]
    have e2 : s.plain.gate = s.gate := rfl
    simp only [e2]
    generalize hc : s.gate.consumeInbound (R.drain (s.inner.intake d).1.conn).2 = gc at hR
    obtain ⟨g, r⟩ := gc
    cases r with
    | validated tail =>
      simp only [Bool.false_eq_true, if_false]
      have hR' := hR g tail hv rfl
      refine ⟨?_, ?_, by simp, by simp, ?_⟩
      · rw [plain_flushLabel]
        · simp only [plain, hacc]
        · intro hp
          rw [hsp.1, hsp.2.1]
          exact hR' hp
      · unfold LabeledTls.flushLabel; simp only []; split
        · rfl
        · split <;> rfl
      · unfold LabeledTls.flushLabel; simp only []; split
        · exact hdd
        · split
          · exact hdd
          · simp only [TlsRecords.write]; split <;> exact hdd
    | buffering =>
      simp only [Bool.false_eq_true, if_false]
      exact ⟨by simp [plain, hacc], trivial, by simp, by simp, hdd⟩
    | rejected =>
      simp only [if_true]
      exact ⟨by simp [plain, hacc], trivial, by simp, by simp, hdd⟩

/-- One round of intake and read is one read of the plain pipe. -/
theorem round (s : LabeledTls R) (d : Bytes) (h : (s.inner.intake d).2 ≠ .failed) (hr : s.Roomy) :
    ((s.plain.recv (s.surfaced d)).2 = true → (s.recv d).2 = .failed ∧ (s.recv d).1.plain = (s.plain.recv (s.surfaced d)).1 ∧
      (s.recv d).1.passed = s.passed ++ s.surfaced d) ∧
    ((s.plain.recv (s.surfaced d)).2 = false → (s.recv d).2 = (s.inner.intake d).2 ∧
      (s.recv d).1.read.1.plain = (s.plain.recv (s.surfaced d)).1.read.1 ∧
      (s.recv d).1.read.2 = (s.plain.recv (s.surfaced d)).1.read.2 ∧
      (s.recv d).1.read.1.passed = s.passed ++ s.surfaced d) := by
  cases hv : s.gate.validated with
  | true =>
    have e : s.plain.recv (s.surfaced d) = ({ s.plain with inbound := s.surfaced d }, false) := by
      have hv' : s.plain.gate.validated = true := hv
      simp only [Labeled.recv, hv', Bool.not_true, Bool.false_eq_true, if_false]
      rfl
    rw [e, s.recv_valid d h hv]
    refine ⟨by simp, fun _ => ⟨rfl, ?_, rfl, rfl⟩⟩
    simp only [plain, LabeledTls.read, Labeled.read, TlsRecords.read, s.inner.intake_accepted d]
  | false =>
    obtain ⟨h1, h2, h3, h4, h5⟩ := s.recv_unval d h hv hr
    refine ⟨fun hf => ⟨h3 hf, h1, h2⟩, fun hf => ⟨h4 hf, ?_, ?_, ?_⟩⟩
    · rw [← h1]; rfl
    · rw [← h1]
      simp only [LabeledTls.read, TlsRecords.read, h5, Labeled.read, plain]
    · simp only [LabeledTls.read, TlsRecords.read, h5, h2, List.append_nil]

theorem plain_clear (s : LabeledTls R) : s.clearOutbound.plain = s.plain.clearOutbound := by
  simp only [plain, LabeledTls.clearOutbound, Labeled.clearOutbound, TlsRecords.clearOutbound, accepted_snoc, acceptedStep]

theorem plain_closeNotify (s : LabeledTls R) : s.sendCloseNotify.plain = s.plain := by
  simp only [plain, LabeledTls.sendCloseNotify, TlsRecords.sendCloseNotify_accepted]

theorem plain_discard (s : LabeledTls R) : s.discard.plain = s.plain.read.1 := rfl

theorem plain_transmit (s : LabeledTls R) : s.transmit.1.plain = s.plain := by
  simp only [plain, LabeledTls.transmit, TlsRecords.transmit, TlsRecords.transmitLoop_accepted]
end LabeledTls
end Verif
