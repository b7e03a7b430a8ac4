import Verif.Proof.TlsRun
/-
The way of ciphertext into an exchange over TLS: nothing is lost, repeated or reordered.
-/
namespace Verif
open Spec

namespace TlsRecords
variable {R : Rustls}

/-- Nothing is received, and rustls goes on as it was. -/
structure Calm (s s' : TlsRecords R) : Prop where
  disp : disposed s'.trace = disposed s.trace
  takes : Receives R → Takes R s.conn → Takes R s'.conn
  over : Receives R → R.handshaking s.conn = false → R.handshaking s'.conn = false

theorem Calm.refl (s : TlsRecords R) : Calm s s := ⟨rfl, fun _ => id, fun _ => id⟩

theorem Calm.trans {a b c : TlsRecords R} (h : Calm a b) (g : Calm b c) : Calm a c :=
  ⟨g.disp.trans h.disp, fun r t => g.takes r (h.takes r t), fun r t => g.over r (h.over r t)⟩

theorem Calm.flushPending (s : TlsRecords R) : Calm s s.flushPending := by
  unfold TlsRecords.flushPending
  split
  · exact ⟨by simp [disposed_append, disposed], fun r t => r.write _ _ t, fun r t => r.over_write _ _ t⟩
  · exact .refl s

theorem Calm.flushClose (s : TlsRecords R) : Calm s s.flushClose := by
  refine (Calm.flushPending s).trans ?_
  unfold TlsRecords.flushClose
  simp only []
  split
  · exact ⟨by simp [disposed_append, disposed], fun r t => r.close _ t, fun r t => r.over_close _ t⟩
  · exact .refl _

theorem Calm.transmitLoop (fuel : Nat) : ∀ (s : TlsRecords R) (out : Bytes), Calm s (transmitLoop fuel s out).1 := by
  induction fuel with
  | zero => intro s out; exact .refl s
  | succ fuel ih =>
    intro s out
    simp only [TlsRecords.transmitLoop]
    have h : Calm s { s.flushClose with conn := (R.writeTls s.flushClose.conn).1 } :=
      (Calm.flushClose s).trans ⟨rfl, fun r t => r.writeTls _ t, fun r t => r.over_writeTls _ t⟩
    split
    · exact h
    · exact h.trans (ih _ _)

theorem Calm.write (s : TlsRecords R) (bs : Bytes) : Calm s (s.write bs).1 := by
  unfold TlsRecords.write
  split
  · exact .refl s
  · exact ⟨by simp [disposed_append, disposed], fun _ => id, fun _ => id⟩

theorem Calm.sendCloseNotify (s : TlsRecords R) : Calm s s.sendCloseNotify :=
  Calm.trans (b := { s with closeRequested := true }) ⟨rfl, fun _ => id, fun _ => id⟩ (.flushClose _)

theorem Calm.read (s : TlsRecords R) : Calm s s.read.1 :=
  ⟨rfl, fun r _ => r.drained _, fun r t => r.over_drain _ t⟩

theorem Calm.clearOutbound (s : TlsRecords R) : Calm s s.clearOutbound :=
  ⟨by simp [TlsRecords.clearOutbound, disposed_append, disposed], fun _ => id, fun _ => id⟩

theorem over_process (hR : Receives R) (s : TlsRecords R) (h : R.handshaking s.conn = false) :
    R.handshaking s.process.1.conn = false := by
  unfold TlsRecords.process
  have := hR.over_process _ h
  split <;> (next hx => rw [hx] at this; exact this)

theorem over_finish (hR : Receives R) (s : TlsRecords R) (fed : Bool) (h : R.handshaking s.conn = false) :
    R.handshaking (s.finishIntake fed).1.conn = false := by
  unfold finishIntake
  split
  · exact h
  · have := over_process hR s h
    split <;> (next hx => rw [hx] at this; exact this)

theorem over_intakeLoop (hR : Receives R) (fuel : Nat) : ∀ (s : TlsRecords R) (rest : Bytes) (n : Nat) (fed : Bool),
    R.handshaking s.conn = false → R.handshaking (intakeLoop fuel s rest n fed).1.conn = false := by
  induction fuel with
  | zero => intro s rest n fed h; exact h
  | succ fuel ih =>
    intro s rest n fed h
    rw [intakeLoop]
    split
    · exact over_finish hR s fed h
    · have hr := hR.over_read s.conn rest h
      split
      · next hx => rw [hx] at hr; exact hr
      · next hx => rw [hx] at hr; exact over_finish hR _ fed hr
      · next c k hx =>
        rw [hx] at hr
        have hp := over_process hR ({ s with conn := c, trace := s.trace ++ [.fed (rest.take (k + 1))] } : TlsRecords R) hr
        simp only []
        split
        · next hy => rw [hy] at hp; exact hp
        · next hy => rw [hy] at hp; exact ih _ _ _ _ hp

theorem over_intake (hR : Receives R) (s : TlsRecords R) (d : Bytes) (h : R.handshaking s.conn = false) :
    R.handshaking (s.intake d).1.conn = false := over_intakeLoop hR _ s d 0 false h

/-- Back-pressure before the first byte leaves rustls with plaintext to fetch. -/
theorem intake_full (hR : Receives R) {s : TlsRecords R} {d : Bytes} (h : (s.intake d).2 = .pending 0) :
    (s.intake d).1.read.2 ≠ [] := by
  have h0 := TBridge.intake_zero h
  have hd : d ≠ [] := by
    intro hd
    subst hd
    unfold TlsRecords.intake TlsRecords.intakeLoop at h
    simp only [if_true] at h
    rcases s.finish_res false with g | g <;> rw [g] at h <;> cases h
  have := hR.full s.conn d h0
  unfold TlsRecords.intake
  rw [TlsRecords.intakeLoop, if_neg hd]
  cases hx : R.readTls s.conn d with
  | mk c o =>
    rw [hx] at h0 this
    cases h0
    exact this
end TlsRecords

namespace LabeledTls
variable {R : Rustls}
open TlsRecords

theorem flushLabel_calm (s : LabeledTls R) : s.flushLabel.inner.conn = s.inner.conn ∧
    disposed s.flushLabel.inner.trace = disposed s.inner.trace ∧ s.flushLabel.gate.validated = s.gate.validated ∧
    s.flushLabel.gate.isValidating = s.gate.isValidating := by
  unfold LabeledTls.flushLabel
  split
  · exact ⟨rfl, rfl, rfl, rfl⟩
  · simp only []
    split
    · exact ⟨rfl, rfl, rfl, rfl⟩
    · refine ⟨?_, (Calm.write _ _).disp, rfl, rfl⟩
      unfold TlsRecords.write
      split <;> rfl

theorem consumeLabel_calm (s : LabeledTls R) :
    s.consumeLabel.1.inner.conn = (R.drain s.inner.conn).1 ∧ disposed s.consumeLabel.1.inner.trace = disposed s.inner.trace ∧
    (s.gate.isValidating = false → s.consumeLabel.1.gate.isValidating = false) := by
  unfold LabeledTls.consumeLabel
  simp only []
  split
  · exact ⟨rfl, rfl, id⟩
  · have hg := consume_validating s.gate s.inner.read.2
    split
    · next g t heq =>
      rw [heq] at hg
      obtain ⟨h1, h2, _, h4⟩ := flushLabel_calm ({ s with inner := s.inner.read.1, passed := s.passed ++ s.inner.read.2, gate := g, postLabelTail := s.postLabelTail ++ t } : LabeledTls R)
      exact ⟨h1, h2, fun h => h4.trans (hg h)⟩
    · next g heq => rw [heq] at hg; exact ⟨rfl, rfl, hg⟩
    · next g heq => rw [heq] at hg; exact ⟨rfl, rfl, hg⟩

/-- What is known after a delivery: rustls is ready for more, or there is no label left to wait for. -/
def Free (s : LabeledTls R) : Prop := Takes R s.inner.conn ∨ s.gate.validated = true

theorem Free.takes (hR : Receives R) {s : LabeledTls R} (h : s.Free) (hh : s.isHandshaking = true) : Takes R s.inner.conn := by
  unfold LabeledTls.isHandshaking at hh
  rw [Bool.or_eq_true] at hh
  rcases hh with hh | hh
  · rcases h with h | h
    · exact h
    · unfold LabelGate.isValidating at hh
      rw [h] at hh
      simp at hh
  · exact hR.hs _ hh

/-- One delivery. -/
theorem recv_order (hR : Receives R) (s : LabeledTls R) (d : Bytes) :
    (s.isHandshaking = false → (s.recv d).1.isHandshaking = false) ∧ 
    match (s.recv d).2 with
    | .done => disposed (s.recv d).1.inner.trace = disposed s.inner.trace ++ d ∧ (s.recv d).1.Free
    | .pending n => n ≤ d.length ∧ disposed (s.recv d).1.inner.trace = disposed s.inner.trace ++ d.take n ∧ (s.recv d).1.Free ∧
        (n = 0 → ¬ Takes R s.inner.conn ∧ (s.gate.validated = true → (s.recv d).1.inner.read.2 ≠ []))
    | .failed => disposed (s.recv d).1.inner.trace <+: disposed s.inner.trace ++ d := by
  obtain ⟨_, _, _, t, h4, _, h6⟩ := s.inner.intake_spec d
  have hdp : disposed (s.inner.intake d).1.trace = disposed s.inner.trace ++ disposed t := by rw [h4, disposed_append]
  have hov := over_intake hR s.inner d
  have hful := @intake_full R hR s.inner d
  have hzero := @TBridge.intake_zero R s.inner d
  have hz : (s.inner.intake d).2 = .pending 0 → ¬ Takes R s.inner.conn := fun h ht => ht d (hzero h)
  unfold LabeledTls.recv
  simp only []
  revert h6 hdp hov hful hz
  generalize s.inner.intake d = r
  obtain ⟨i, res⟩ := r
  intro h6 hdp hov hful hz
  simp only [] at h6 hdp hov hful hz
  have hs : ∀ g : LabelGate, (s.gate.isValidating = false → g.isValidating = false) → s.isHandshaking = false →
      (g.isValidating || R.handshaking i.conn) = false := by
    intro g hg h
    unfold LabeledTls.isHandshaking TlsRecords.isHandshaking at h
    rw [Bool.or_eq_false_iff] at h ⊢
    exact ⟨hg h.1, hov h.2⟩
  split
  · next hf =>
    simp only [] at hf
    subst hf
    refine ⟨hs s.gate id, ?_⟩
    rw [hdp]
    obtain ⟨x, hx⟩ := h6
    exact ⟨x, by rw [List.append_assoc, hx]⟩
  · next hf =>
    split
    · next hv =>
      obtain ⟨c1, c2, c3⟩ := consumeLabel_calm ({ s with inner := i } : LabeledTls R)
      generalize ({ s with inner := i } : LabeledTls R).consumeLabel = q at c1 c2 c3 ⊢
      have hq : s.isHandshaking = false → q.1.isHandshaking = false := by
        intro h
        have := hs q.1.gate c3 h
        rw [Bool.or_eq_false_iff] at this
        unfold LabeledTls.isHandshaking TlsRecords.isHandshaking
        rw [Bool.or_eq_false_iff, c1]
        exact ⟨this.1, hR.over_drain _ this.2⟩
      have hfree : q.1.Free := .inl (by rw [c1]; exact hR.drained _)
      split
      · refine ⟨hq, ?_⟩
        show disposed q.1.inner.trace <+: _
        rw [c2, hdp]
        cases res with
        | done => rw [h6]; exact List.prefix_refl _
        | pending n => rw [h6.2.1]; exact (List.prefix_append_right_inj _).2 (List.take_prefix _ _)
        | failed => exact absurd rfl hf
      · refine ⟨hq, ?_⟩
        cases res with
        | done => exact ⟨by rw [c2, hdp, h6], hfree⟩
        | pending n =>
          refine ⟨h6.1, by rw [c2, hdp, h6.2.1], hfree, fun h0 => ?_⟩
          subst h0
          refine ⟨hz rfl, fun hv' => ?_⟩
          have hv : (!s.gate.validated) = true := hv
          rw [hv'] at hv; cases hv
        | failed => exact absurd rfl hf
    · next hv =>
      have hv : s.gate.validated = true := by simpa using hv
      refine ⟨hs s.gate id, ?_⟩
      cases res with
      | done => exact ⟨by rw [hdp, h6], .inr hv⟩
      | pending n =>
        refine ⟨h6.1, by rw [hdp, h6.2.1], .inr hv, fun h0 => ?_⟩
        subst h0
        exact ⟨hz rfl, fun _ => hful rfl⟩
      | failed => exact absurd rfl hf
end LabeledTls

namespace TBridge
variable {I A : Type} {R : Rustls}
open TlsRecords

/-- The ciphertext rustls has been offered and disposed of. -/
def got (b : TBridge I A R) : Bytes := disposed b.records.inner.trace

/-- Nothing is received, and an exchange that goes on is as it was on the receiving side. -/
structure Calm (b b' : TBridge I A R) : Prop where
  got : b'.got = b.got
  live : b'.isTerminal = false → b.isTerminal = false ∧ b'.pendingInbound = b.pendingInbound ∧ b'.records.gate = b.records.gate ∧
    (b'.stream = none ↔ b.stream = none) ∧ (Receives R → Takes R b.records.inner.conn → Takes R b'.records.inner.conn) ∧
    (Receives R → R.handshaking b.records.inner.conn = false → R.handshaking b'.records.inner.conn = false)

theorem Calm.refl (b : TBridge I A R) : Calm b b := ⟨rfl, fun h => ⟨h, rfl, rfl, Iff.rfl, fun _ => id, fun _ => id⟩⟩

theorem Calm.trans {a b c : TBridge I A R} (h : Calm a b) (g : Calm b c) : Calm a c := by
  refine ⟨g.got.trans h.got, fun ht => ?_⟩
  obtain ⟨g1, g2, g3, g4, g5, g6⟩ := g.live ht
  obtain ⟨h1, h2, h3, h4, h5, h6⟩ := h.live g1
  exact ⟨h1, g2.trans h2, g3.trans h3, g4.trans h4, fun r t => g5 r (h5 r t), fun r t => g6 r (h6 r t)⟩

theorem Calm.records {b b' : TBridge I A R} (h1 : b'.isTerminal = false → b.isTerminal = false) (h2 : b'.pendingInbound = b.pendingInbound)
    (h3 : b'.records.gate = b.records.gate) (h4 : b'.stream = none ↔ b.stream = none)
    (h5 : TlsRecords.Calm b.records.inner b'.records.inner) : Calm b b' :=
  ⟨h5.disp, fun h => ⟨h1 h, h2, h3, h4, h5.takes, h5.over⟩⟩

theorem terminal_of_failed {b : TBridge I A R} (h : b.isFailed = true) : b.isTerminal = true := by
  unfold TBridge.isFailed at h
  unfold TBridge.isTerminal
  split at h
  · next hp => rw [hp]
  · cases h

theorem Calm.dead {b b' : TBridge I A R} (hg : b'.got = b.got) (hf : b'.isFailed = true) : Calm b b' :=
  ⟨hg, fun h => by rw [terminal_of_failed hf] at h; cases h⟩

theorem fail_got (b : TBridge I A R) (r : LinkFail) : (b.fail r).got = b.got := by
  unfold TBridge.fail
  split
  · rfl
  · exact (TlsRecords.Calm.clearOutbound b.records.inner).disp

theorem retire_got (b : TBridge I A R) : b.retire.got = b.got := by
  unfold TBridge.retire TBridge.got
  simp only [LabeledTls.discard]
  split
  · rfl
  · exact (TlsRecords.Calm.sendCloseNotify b.records.inner).disp

theorem failWithRetire_got (b : TBridge I A R) (r : LinkFail) : (b.failWithRetire r).got = b.got :=
  (fail_got _ r).trans (retire_got b)

variable [DecidableEq I]

theorem Calm.fail (b : TBridge I A R) (r : LinkFail) : Calm b (b.fail r) := .dead (fail_got b r) (fail_isFailed b r)

theorem Calm.failWithRetire (b : TBridge I A R) (r : LinkFail) : Calm b (b.failWithRetire r) :=
  .dead (failWithRetire_got b r) (failWithRetire_isFailed b r)

theorem observeSendFin_live (b : TBridge I A R) (h : b.observeSendFin.isTerminal = false) : b.isTerminal = false := by
  unfold TBridge.observeSendFin at h
  unfold TBridge.isTerminal at h ⊢
  cases hp : b.phase <;> rw [hp] at h <;> simp_all

theorem Calm.observeSendFin (b : TBridge I A R) : Calm b b.observeSendFin := by
  refine .records b.observeSendFin_live ?_ ?_ ?_ ?_ <;> (unfold TBridge.observeSendFin; split) <;>
    first | rfl | exact Iff.rfl | exact .refl _

theorem observeRecvFin_live (b : TBridge I A R) (h : b.observeRecvFin.isTerminal = false) : b.isTerminal = false := by
  unfold TBridge.observeRecvFin at h
  unfold TBridge.isTerminal at h ⊢
  cases hp : b.phase <;> rw [hp] at h <;> simp_all

theorem Calm.observeRecvFin (b : TBridge I A R) : Calm b b.observeRecvFin := by
  refine .records b.observeRecvFin_live ?_ ?_ ?_ ?_ <;> (unfold TBridge.observeRecvFin; split) <;>
    first | rfl | exact Iff.rfl | exact .refl _

theorem Calm.closeSend (b : TBridge I A R) (s : Stream I A) : Calm b (b.closeSend s) := by
  unfold TBridge.closeSend
  split
  · exact .failWithRetire b _
  · split
    · exact Calm.trans (b := { b with records := b.records.sendCloseNotify, finSent := true })
        (.records id rfl rfl Iff.rfl (.sendCloseNotify _)) (.observeSendFin _)
    · exact .refl b

theorem admit_calm (r : LabeledTls R) (u : Bytes × Bytes) : (admit r u).1.gate = r.gate ∧ TlsRecords.Calm r.inner (admit r u).1.inner := by
  unfold admit
  simp only []
  split
  · exact ⟨rfl, (TlsRecords.Calm.write r.inner _).trans (.write _ _)⟩
  · exact ⟨rfl, .write r.inner _⟩

theorem Calm.pumpOut (T : TEnv) (b : TBridge I A R) (now : Nat) : Calm b (b.pumpOut T now) := by
  unfold TBridge.pumpOut
  split
  · exact .fail b _
  · split
    · exact .refl b
    · next s hs =>
      split
      · exact .failWithRetire b _
      · split
        · exact .failWithRetire b _
        · split
          · next s' _ =>
            refine Calm.trans (b := { b with stream := some s' }) ?_ (.closeSend _ _)
            exact .records id rfl rfl (by simp [hs]) (.refl _)
          · next s' chunks _ =>
            simp only []
            obtain ⟨a1, a2⟩ := admit_calm b.records (({ b with stream := some s', sentAny := true } : TBridge I A R).unit T chunks.flatten)
            split
            · refine Calm.trans ?_ (.closeSend _ _)
              exact .records id rfl a1 (by simp [hs]) a2
            · refine Calm.trans ?_ (.failWithRetire _ _)
              exact .records id rfl a1 (by simp [hs]) a2

theorem Calm.transmit (b : TBridge I A R) : Calm b b.transmit.1 :=
  .records id rfl rfl Iff.rfl (.transmitLoop _ _ _)

variable {env : Env I A} {T : TEnv}

theorem Calm.endOfInput (CI : DataCodec I) (CA : DataCodec A) (b : TBridge I A R) (s : Stream I A) (now : Nat) (hs : b.stream ≠ none) :
    Calm b (b.endOfInput CI CA s now) := by
  have hx : ∀ s', Calm b { b with stream := some s' } := fun s' => .records id rfl rfl (by simp [hs]) (.refl _)
  unfold TBridge.endOfInput
  split
  · exact .failWithRetire b _
  · split
    · exact (hx _).trans (.failWithRetire _ _)
    · exact (hx _).trans (.observeRecvFin _)

section
variable [DecidableEq A] {cfg : Cfg I A}

theorem Calm.drain (cmp : CmpOptions) (now : Nat) (fuel : Nat) : ∀ (b : TBridge I A R) (e : Ep I A) (log : List (Ep.Op I A)),
    Calm b (drainEvents cfg env T cmp now fuel e b log).2.1 := by
  induction fuel with
  | zero => intro b e log; exact .refl b
  | succ fuel ih =>
    intro b e log
    simp only [drainEvents]
    split
    · exact .refl b
    · next s hs =>
      split
      · exact .refl b
      · next ev rest he =>
        refine Calm.trans ?_ (ih _ _ _)
        unfold TBridge.commitOne
        simp only []
        split
        · exact .records id rfl rfl (by simp [hs]) (.refl _)
        · refine Calm.trans ?_ (.pumpOut T _ now)
          exact .records id rfl rfl (by simp [hs]) (.refl _)
        · refine Calm.trans ?_ (.failWithRetire _ _)
          exact .records id rfl rfl (by simp [hs]) (.refl _)
end

/-- The state of the receiving side after the bytes `F` were delivered. -/
structure Flow (F : Bytes) (b : TBridge I A R) : Prop where
  pre : b.got <+: F
  all : b.isTerminal = false → b.got ++ b.pendingInbound = F
  free : b.isTerminal = false → Takes R b.records.inner.conn ∨ (b.stream = none ∧ b.records.gate.validated = true)
  held : b.isTerminal = false → b.pendingInbound ≠ [] → b.stream = none ∧ b.records.isHandshaking = false

theorem Flow.calm {F : Bytes} {b b' : TBridge I A R} (hR : Receives R) (h : Flow F b) (c : Calm b b') : Flow F b' := by
  refine ⟨by rw [c.got]; exact h.pre, fun ht => ?_, fun ht => ?_, fun ht hp => ?_⟩ <;>
    obtain ⟨c1, c2, c3, c4, c5, c6⟩ := c.live ht
  · rw [c.got, c2]; exact h.all c1
  · rw [c3, c4]; exact (h.free c1).imp (c5 hR) id
  · rw [c2] at hp
    obtain ⟨h1, h2⟩ := h.held c1 hp
    unfold LabeledTls.isHandshaking TlsRecords.isHandshaking at h2 ⊢
    rw [Bool.or_eq_false_iff] at h2 ⊢
    rw [c3]
    exact ⟨c4.2 h1, h2.1, c6 hR h2.2⟩

theorem Flow.more {F : Bytes} {b : TBridge I A R} (h : Flow F b) (ht : b.isTerminal = true) (data : Bytes) : Flow (F ++ data) b :=
  ⟨h.pre.trans (List.prefix_append _ _), fun hn => (by rw [ht] at hn; cases hn), fun hn => (by rw [ht] at hn; cases hn),
    fun hn => (by rw [ht] at hn; cases hn)⟩

theorem Flow.dead {F : Bytes} {b : TBridge I A R} (hp : b.got <+: F) (ht : b.isFailed = true) : Flow F b := by
  have ht := terminal_of_failed ht
  exact ⟨hp, fun hn => (by rw [ht] at hn; cases hn), fun hn => (by rw [ht] at hn; cases hn), fun hn => (by rw [ht] at hn; cases hn)⟩

/-- The loop that takes ciphertext before there is a stream. -/
theorem Flow.intake (hR : Receives R) (fuel : Nat) : ∀ (b : TBridge I A R) (rest : Bytes), rest.length < fuel →
    b.stream = none → b.pendingInbound = [] → Takes R b.records.inner.conn →
    Flow (b.got ++ rest) (b.intakeHandshaking fuel rest) := by
  induction fuel with
  | zero => intro b rest h; omega
  | succ fuel ih =>
    intro b rest hf hs hp ht
    obtain ⟨_, h2⟩ := LabeledTls.recv_order hR b.records rest
    rw [intakeHandshaking]
    simp only []
    generalize b.records.recv rest = r at h2 ⊢
    obtain ⟨l, res⟩ := r
    cases res with
    | failed =>
      refine .dead ?_ (fail_isFailed _ _)
      rw [fail_got]
      exact h2
    | done =>
      have hg : ({ b with records := l } : TBridge I A R).got = b.got ++ rest := h2.1
      refine ⟨by rw [hg]; exact List.prefix_refl _, fun _ => ?_, fun _ => h2.2.imp id (fun h => ⟨hs, h⟩), fun _ hn => absurd hp hn⟩
      rw [hg, hp, List.append_nil]
    | pending n =>
      obtain ⟨k1, k2, k3, k4⟩ := h2
      have hg : ({ b with records := l } : TBridge I A R).got = b.got ++ rest.take n := k2
      simp only []
      split
      · next hh =>
        have hh : l.isHandshaking = false := by simpa using hh
        have hg' : ({ b with records := l, pendingInbound := b.pendingInbound ++ rest.drop n } : TBridge I A R).got = b.got ++ rest.take n := k2
        refine ⟨?_, fun _ => ?_, fun _ => k3.imp id (fun h => ⟨hs, h⟩), fun _ _ => ⟨hs, hh⟩⟩
        · rw [hg']; exact (List.prefix_append_right_inj _).2 (List.take_prefix _ _)
        · rw [hg']
          show _ ++ (b.pendingInbound ++ rest.drop n) = _
          rw [hp, List.nil_append, List.append_assoc, List.take_append_drop]
      · next hh =>
        have hh : l.isHandshaking = true := by simpa using hh
        split
        · next h0 => exact absurd ht (k4 h0).1
        · have := ih ({ b with records := l }) (rest.drop n) (by rw [List.length_drop]; omega) hs hp (k3.takes hR hh)
          rw [hg, List.append_assoc, List.take_append_drop] at this
          exact this

/-- The loop that takes ciphertext for a stream. -/
theorem Flow.loop (hR : Receives R) (CI : DataCodec I) (CA : DataCodec A) (eof : Bool) (now : Nat) (fuel : Nat) :
    ∀ (b : TBridge I A R) (s : Stream I A) (rest : Bytes), b.stream ≠ none → b.pendingInbound = [] → 
    ((Takes R b.records.inner.conn ∧ rest.length < fuel) ∨ (b.records.gate.validated = true ∧ rest.length + 1 < fuel)) →
    Flow (b.got ++ rest) (b.pumpInLoop CI CA T eof now fuel s rest) := by
  induction fuel with
  | zero => intro b s rest _ _ h; omega
  | succ fuel ih =>
    intro b s rest hs hp hf
    obtain ⟨_, h2⟩ := LabeledTls.recv_order hR b.records rest
    rw [pumpInLoop]
    simp only []
    generalize b.records.recv rest = r at h2 ⊢
    obtain ⟨l, res⟩ := r
    split
    · next hfl =>
      simp only [] at hfl
      subst hfl
      refine .dead ?_ (failWithRetire_isFailed _ _)
      rw [failWithRetire_got]
      exact h2
    · next hfl =>
      simp only [] at hfl ⊢
      generalize Bridge.drainUnits CI CA T none b.max now ((b.accum ++ l.read.2).length + 1) s (b.accum ++ l.read.2) = d
      have hdr : Takes R l.read.1.inner.conn := hR.drained _
      have hcl : ∀ b1 : TBridge I A R, b1.stream ≠ none → b1.pendingInbound = [] → Takes R b1.records.inner.conn → b1.got = b.got ++ rest →
          Flow (b.got ++ rest) (if eof || b1.records.inner.peerClosed then b1.endOfInput CI CA d.1 now else b1) := by
        intro b1 e1 e2 e3 e4
        have h0 : Flow (b.got ++ rest) b1 := ⟨by rw [e4]; exact List.prefix_refl _, fun _ => by rw [e4, e2, List.append_nil],
          fun _ => .inl e3, fun _ hn => absurd e2 hn⟩
        split
        · exact h0.calm hR (.endOfInput CI CA b1 _ now e1)
        · exact h0
      have hbad : ∀ r', Flow (b.got ++ rest) (({ b with records := l.read.1, stream := some d.1, accum := d.2.1 } : TBridge I A R).failWithRetire r') := by
        intro r'
        refine .dead ?_ (failWithRetire_isFailed _ _)
        rw [failWithRetire_got]
        show disposed l.inner.trace <+: _
        cases res with
        | done => rw [h2.1]; exact List.prefix_refl _
        | pending n => rw [h2.2.1]; exact (List.prefix_append_right_inj _).2 (List.take_prefix _ _)
        | failed => exact absurd rfl hfl
      split
      · exact hbad _
      · exact hbad _
      · cases res with
        | failed => exact absurd rfl hfl
        | done =>
          simp only []
          exact hcl ({ b with records := l.read.1, stream := some d.1, accum := d.2.1 }) (by simp) hp hdr h2.1
        | pending n =>
          obtain ⟨k1, k2, k3, k4⟩ := h2
          simp only []
          split
          · next h0 =>
            exfalso
            obtain ⟨g1, g2⟩ := k4 h0.1
            rcases hf with ⟨hf, _⟩ | ⟨hf, _⟩
            · exact g1 hf
            · refine g2 hf ?_
              have := h0.2
              simp only [LabeledTls.read, List.append_eq_nil_iff] at this
              exact this.2
          · have hlen : (rest.drop n).length < fuel := by
              rw [List.length_drop]
              rcases hf with ⟨hf, _⟩ | ⟨_, _⟩
              · have : n ≠ 0 := fun h0 => (k4 h0).1 hf
                omega
              · omega
            have := ih ({ b with records := l.read.1, stream := some d.1, accum := d.2.1 }) d.1 (rest.drop n) (by simp) hp (.inl ⟨hdr, hlen⟩)
            have hg : ({ b with records := l.read.1, stream := some d.1, accum := d.2.1 } : TBridge I A R).got = b.got ++ rest.take n := k2
            rw [hg, List.append_assoc, List.take_append_drop] at this
            exact this

theorem Flow.pumpIn (hR : Receives R) (CI : DataCodec I) (CA : DataCodec A) {F : Bytes} {b : TBridge I A R} {s : Stream I A} (hs : b.stream = some s)
    (ht : b.isTerminal = false) (hg : b.got ++ b.pendingInbound = F) (hfree : Takes R b.records.inner.conn ∨ b.records.gate.validated = true)
    (data : Bytes) (eof : Bool) (now : Nat) :
    Flow (F ++ data) (({ b with pendingInbound := [] } : TBridge I A R).pumpIn CI CA T s (b.pendingInbound ++ data) eof now) := by
  unfold TBridge.pumpIn
  rw [if_neg (by show ¬ b.isTerminal = true; rw [ht]; simp)]
  have := Flow.loop (T := T) hR CI CA eof now (2 * (b.pendingInbound ++ data).length + 2) ({ b with pendingInbound := [] } : TBridge I A R) s
    (b.pendingInbound ++ data) (by rw [hs]; simp) rfl (hfree.imp (fun h => ⟨h, by omega⟩) (fun h => ⟨h, by omega⟩))
  rw [← List.append_assoc] at this
  rw [← hg]
  exact this

theorem Flow.feed (hR : Receives R) {F : Bytes} {b : TBridge I A R} (h : Flow F b) (data : Bytes) (now : Nat)
    (hserved : data ≠ [] → b.stream = none → b.isTerminal = false → b.records.isHandshaking = true) :
    Flow (F ++ data) (b.feed env.CI env.CA T data now) := by
  unfold TBridge.feed
  split
  · next ht => exact h.more ht data
  · next ht =>
    have ht : b.isTerminal = false := by simpa using ht
    split
    · next hs =>
      have hfr : b.records.Free := (h.free ht).imp id And.right
      split
      · next hd =>
        subst hd
        rw [List.append_nil]
        split
        · exact h.calm hR (.fail b _)
        · next hh =>
          have hh : b.records.isHandshaking = false := by simpa using hh
          obtain ⟨g1, g2⟩ := LabeledTls.recv_order hR b.records []
          have g1 := g1 hh
          rw [intakeHandshaking]
          simp only []
          generalize b.records.recv [] = r at g1 g2 ⊢
          obtain ⟨l, res⟩ := r
          cases res with
          | failed =>
            refine .dead ?_ (fail_isFailed _ _)
            rw [fail_got]
            exact (List.IsPrefix.trans g2 (by rw [List.append_nil]; exact List.prefix_refl _)).trans h.pre
          | done =>
            have hg : ({ b with pendingEof := true, records := l } : TBridge I A R).got = b.got := by
              have := g2.1; rw [List.append_nil] at this; exact this
            refine ⟨by rw [hg]; exact h.pre, fun _ => by rw [hg]; exact h.all ht, fun _ => g2.2.imp id (fun h => ⟨hs, h⟩), fun _ _ => ⟨hs, g1⟩⟩
          | pending n =>
            obtain ⟨k1, k2, k3, _⟩ := g2
            have hn : n = 0 := by simpa using k1
            subst hn
            have hg : ({ b with pendingEof := true, records := l } : TBridge I A R).got = b.got := by
              rw [List.take_nil, List.append_nil] at k2; exact k2
            simp only []
            rw [if_pos (by rw [g1]; rfl)]
            refine ⟨?_, fun _ => ?_, fun _ => k3.imp id (fun h => ⟨hs, h⟩), fun _ _ => ⟨hs, g1⟩⟩
            · show ({ b with pendingEof := true, records := l } : TBridge I A R).got <+: F
              rw [hg]; exact h.pre
            · show ({ b with pendingEof := true, records := l } : TBridge I A R).got ++ (b.pendingInbound ++ _) = F
              rw [hg, List.drop_nil, List.append_nil]; exact h.all ht
      · next hd =>
        have hh := hserved hd hs ht
        have hp : b.pendingInbound = [] := by
          cases hp : b.pendingInbound with
          | nil => rfl
          | cons x l =>
            have := (h.held ht (by rw [hp]; simp)).2
            rw [hh] at this; cases this
        have := Flow.intake hR (data.length + 1) b data (by omega) hs hp (hfr.takes hR hh)
        have ha := h.all ht
        rw [hp, List.append_nil] at ha
        rw [ha] at this
        exact this
    · next s hs =>
      refine Flow.pumpIn hR _ _ hs ht (h.all ht) ?_ data _ now
      exact (h.free ht).imp id And.right

theorem Flow.replay (hR : Receives R) {F : Bytes} {b : TBridge I A R}
    (h : b.stream ≠ none → b.isTerminal = false → b.got ++ b.pendingInbound = F ∧ (Takes R b.records.inner.conn ∨ b.records.gate.validated = true))
    (h' : b.stream = none ∨ b.isTerminal = true → Flow F b) (now : Nat) :
    Flow F (b.replay env.CI env.CA T now) := by
  unfold TBridge.replay
  split
  · next hs => exact h' (.inl hs)
  · next s hs =>
    split
    · next ht => exact h' (.inr ht)
    · next ht =>
      have ht : b.isTerminal = false := by simpa using ht
      obtain ⟨h1, h2⟩ := h (by rw [hs]; simp) ht
      have := Flow.pumpIn (T := T) hR env.CI env.CA hs ht h1 h2 [] b.pendingEof now
      rw [List.append_nil, List.append_nil] at this
      exact this

section
variable [DecidableEq A] {cfg : Cfg I A}

/-- One call of the coordinator. -/
theorem Flow.step (hR : Receives R) {F : Bytes} {b : TBridge I A R} (h : Flow F b) (op : TOp I A)
    (hserved : ∀ data now, op = .feed data now → data ≠ [] → b.stream = none → b.isTerminal = false → b.records.isHandshaking = true) :
    Flow (F ++ delivered [op]) (b.step cfg env T op).1 := by
  cases op with
  | feed data now =>
    simp only [delivered, List.append_nil]
    exact h.feed hR data now (hserved data now rfl)
  | mint s now =>
    simp only [delivered, List.append_nil, TBridge.step]
    split
    · next hc =>
      have ht : b.isTerminal = false := by unfold TBridge.isTerminal; rw [hc.1]
      refine Flow.replay (b := b.promote s) hR (fun _ _ => ⟨h.all ht, (h.free ht).imp id And.right⟩) ?_ now
      rintro (hn | hn)
      · cases hn
      · cases hn
    · exact h
  | replay now =>
    simp only [delivered, List.append_nil, TBridge.step]
    exact Flow.replay hR (fun _ ht => ⟨h.all ht, (h.free ht).imp id And.right⟩) (fun _ => h) now
  | pump now => simp only [delivered, List.append_nil, TBridge.step]; exact h.calm hR (.pumpOut T b now)
  | transmit => simp only [delivered, List.append_nil, TBridge.step]; exact h.calm hR (.transmit b)
  | commit cmp e now =>
    simp only [delivered, List.append_nil, TBridge.step, drainPayloadOnly]
    split
    · exact h.calm hR (.drain _ _ _ _ _ _)
    · exact h
  | reap cmp e now =>
    simp only [delivered, List.append_nil, TBridge.step]
    split
    · unfold drainThenReap
      split
      · exact h
      · exact h.calm hR (.drain _ _ _ _ _ _)
    · exact h
  | setCompression cmp => simp only [delivered, List.append_nil, TBridge.step]; exact h.calm hR (.records id rfl rfl Iff.rfl (.refl _))
  | setEncryption ring => simp only [delivered, List.append_nil, TBridge.step]; exact h
  | fail r => simp only [delivered, List.append_nil, TBridge.step]; exact h.calm hR (.fail b r)

theorem delivered_cons (op : TOp I A) (ops : List (TOp I A)) : delivered (op :: ops) = delivered [op] ++ delivered ops := by
  cases op <;> simp [delivered]

/-- A history. -/
theorem Flow.run (hR : Receives R) (ops : List (TOp I A)) : ∀ {F : Bytes} {b : TBridge I A R}, Flow F b →
    (∀ pre data now post, ops = pre ++ .feed data now :: post → data ≠ [] → (b.run cfg env T pre).stream = none →
      (b.run cfg env T pre).isTerminal = false → (b.run cfg env T pre).isHandshaking = true) →
    Flow (F ++ delivered ops) (b.run cfg env T ops) := by
  induction ops with
  | nil => intro F b h _; simp only [delivered, List.append_nil]; exact h
  | cons op ops ih =>
    intro F b h hserved
    rw [delivered_cons, ← List.append_assoc]
    refine ih (b := (b.step cfg env T op).1) (h.step hR op ?_) ?_
    · intro data now he hd hs ht
      subst he
      have := hserved [] data now ops rfl hd hs ht
      unfold TBridge.isHandshaking at this
      rw [Bool.and_eq_true] at this
      exact this.2
    · intro pre data now post he hd hs ht
      exact hserved (op :: pre) data now post (by rw [he]; rfl) hd hs ht
end
end TBridge
end Verif
