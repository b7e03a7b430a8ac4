import Verif.Proof.TlsBridge
/-
The exchange over TLS: what it holds, in terms of the plaintext rustls surfaced.
-/
namespace Verif
open Spec

namespace TBridge
variable {I A : Type} {R : Rustls} [DecidableEq I] {env : Env I A} {X : XCfg} {T : TEnv}

theorem plain_endOfInput (b : TBridge I A R) (s : Stream I A) (now : Nat) :
    (b.endOfInput env.CI env.CA s now).plain = b.plain.endOfInput env.CI env.CA s now := by
  unfold TBridge.endOfInput Bridge.endOfInput
  have : b.plain.accum = b.accum := rfl
  rw [this]
  split
  · exact plain_failWithRetire _ _
  · cases s.handleData env.CI env.CA [] now with
    | mk s' o =>
      cases o with
      | none => exact plain_observeRecvFin _
      | some e => exact plain_failWithRetire _ _

theorem TKin.endOfInput (b : TBridge I A R) (s : Stream I A) (now : Nat) (hs : b.stream ≠ none) :
    TKin b (b.endOfInput env.CI env.CA s now) := by
  unfold TBridge.endOfInput
  split
  · exact .failWithRetire _ _
  · split
    · next s' _ _ =>
      exact TKin.trans (b := { b with stream := some s' }) (TKin.set rfl (by simp [hs]) rfl (.refl _) id) (.failWithRetire _ _)
    · next s' _ =>
      exact TKin.trans (b := { b with stream := some s' }) (TKin.set rfl (by simp [hs]) rfl (.refl _) id)
        (.observeRecvFin _ (by simp))

theorem TKin.intake (fuel : Nat) : ∀ (b : TBridge I A R) (rest : Bytes), TKin b (intakeHandshaking fuel b rest) := by
  induction fuel with
  | zero => intro b rest; exact .refl b
  | succ fuel ih =>
    intro b rest
    have h0 : TKin b { b with records := (b.records.recv rest).1 } := TKin.set rfl Iff.rfl rfl (.recv _ _) id
    simp only [intakeHandshaking]
    split
    · exact h0.trans (.fail _ _)
    · exact h0
    · split
      · exact h0.trans (TKin.set rfl Iff.rfl rfl (.refl _) id)
      · split
        · exact h0
        · exact h0.trans (ih _ _)

theorem TKin.pumpInLoop (eof : Bool) (now : Nat) (fuel : Nat) : ∀ (b : TBridge I A R) (s : Stream I A) (rest : Bytes),
    b.stream ≠ none → TKin b (pumpInLoop env.CI env.CA T eof now fuel b s rest) := by
  induction fuel with
  | zero => intro b s rest _; exact TKin.set rfl Iff.rfl rfl (.refl _) id
  | succ fuel ih =>
    intro b s rest hs
    simp only [TBridge.pumpInLoop]
    split
    · exact TKin.trans (b := { b with records := (b.records.recv rest).1 }) (TKin.set rfl Iff.rfl rfl (.recv _ _) id)
        (.failWithRetire _ _)
    · generalize Bridge.drainUnits env.CI env.CA T none b.max now _ s _ = d
      have h1 : ∀ pend, TKin b { b with records := (b.records.recv rest).1.read.1, stream := some d.1, accum := d.2.1, pendingInbound := pend } :=
        fun pend => TKin.set rfl (by simp [hs]) rfl ((LabeledTls.LKin.recv _ _).trans (.read _)) id
      have hcl : ∀ (b1 : TBridge I A R), TKin b b1 → b1.stream ≠ none →
          TKin b (if eof || b1.records.inner.peerClosed then b1.endOfInput env.CI env.CA d.1 now else b1) := by
        intro b1 hk hn
        split
        · exact hk.trans (.endOfInput _ _ _ hn)
        · exact hk
      split
      · exact (h1 _).trans (.failWithRetire _ _)
      · exact (h1 _).trans (.failWithRetire _ _)
      · split
        · split
          · exact hcl _ (h1 _) (by simp)
          · exact (h1 _).trans (ih _ _ _ (by simp))
        · exact hcl _ (h1 _) (by simp)

theorem TKin.pumpIn (b : TBridge I A R) (s : Stream I A) (input : Bytes) (eof : Bool) (now : Nat) (hs : b.stream ≠ none) :
    TKin b (b.pumpIn env.CI env.CA T s input eof now) := by
  unfold TBridge.pumpIn
  split
  · exact .refl b
  · exact .pumpInLoop _ _ _ _ _ _ hs

theorem TKin.feed (b : TBridge I A R) (data : Bytes) (now : Nat) : TKin b (b.feed env.CI env.CA T data now) := by
  unfold TBridge.feed
  split
  · exact .refl b
  · split
    · split
      · split
        · exact .fail b _
        · exact TKin.trans (b := { b with pendingEof := true }) (TKin.set rfl Iff.rfl rfl (.refl _) id) (.intake _ _ _)
      · exact .intake _ _ _
    · next s hs =>
      exact TKin.trans (b := { b with pendingInbound := [] }) (TKin.set rfl Iff.rfl rfl (.refl _) id)
        (.pumpIn _ _ _ _ _ (by simp [hs]))

theorem TKin.replay (b : TBridge I A R) (now : Nat) : TKin b (b.replay env.CI env.CA T now) := by
  unfold TBridge.replay
  split
  · exact .refl b
  · next s hs =>
    split
    · exact .refl b
    · exact TKin.trans (b := { b with pendingInbound := [] }) (TKin.set rfl Iff.rfl rfl (.refl _) id)
        (.pumpIn _ _ _ _ _ (by simp [hs]))

variable {opened : Stream I A → Prop} {max : Nat} {W : Bytes} {E E' : Bool} {b : TBridge I A R}

/-- What is known of the record layer. -/
structure Ready (b : TBridge I A R) : Prop where
  kept : b.records.inner.Kept
  limit : 65536 ≤ b.records.inner.sendLimit

theorem Ready.kin {b b' : TBridge I A R} (h : Ready b) (k : TKin b b') : Ready b' :=
  ⟨k.via.kept h.kept, by rw [k.via.limit]; exact h.limit⟩

/-- `W` is what the exchange has made use of. -/
structure Held (env : Env I A) (X : XCfg) (T : TEnv) (opened : Stream I A → Prop) (max : Nat) (W : Bytes) (E : Bool)
    (b : TBridge I A R) : Prop where
  pre : W <+: b.records.passed
  cur : ¬ b.plain.Late → W = b.records.passed
  inv : Bridge.BInv env X T opened none max W E b.plain

theorem roomy (h : Bridge.Tracks env X T opened W b.plain) (hr : Ready b) (hX : ∀ l, X.label = some l → l.length ≤ 253) :
    b.records.Roomy := by
  intro p g tail hv hc hpe
  obtain ⟨role, r, h1, h2, h3, _⟩ := h
  have hg : r.s.gate = b.records.gate := by rw [h1]; rfl
  have hgq := h3.gq
  rw [hg] at hgq
  cases hl : effectiveLabel X.label with
  | none =>
    left
    have hlab : b.records.gate.label = none := by rw [← hg, h3.hlabel, hl]
    rw [LabelGate.consumeInbound] at hc
    split at hc
    · cases hc
      unfold LabelGate.queuePrefix
      split
      · simp [hgq]
      · simp [hgq, hlab]
    · next hx => rw [hlab] at hx; cases hx
  | some l =>
    have hll : l.length ≤ 253 := by
      apply hX
      unfold effectiveLabel at hl
      split at hl
      · split at hl
        · cases hl
        · next x _ => simp only [Option.some.injEq] at hl; rw [← hl]; assumption
      · cases hl
    have hlab : b.records.gate.label = some l := by rw [← hg, h3.hlabel, hl]
    have hem := h3.emitted l hl
    have hpe' : r.s.prefixEmitted = false := by rw [h1]; exact hpe
    rw [hpe', hg, hv] at hem
    have hrole : role = .acceptor := by
      cases role with
      | acceptor => rfl
      | dialer => exact absurd (hem.1.2 (.inl rfl)) (by simp)
    have hnw := h3.nowrite l hl hrole (by rw [hg]; exact hv)
    have hout := h3.out l hl
    rw [hnw, if_neg (by rw [hrole, hg, hv]; simp)] at hout
    have hob : accepted b.records.inner.trace = [] := by
      have := (List.append_eq_nil_iff.1 hout).2
      rw [h1] at this
      exact this
    have hpl : b.records.inner.pending.length = 0 := by
      have := unsent_accepted b.records.inner.trace
      rw [hob, ← hr.kept.pend] at this
      simpa using this
    right
    have hlim := hr.limit
    have hpre : g.outboundPrefix.length ≤ 255 := by
      have hq : ∀ g' : LabelGate, g'.label = some l → g'.outboundPrefix = [] → g'.queuePrefix.outboundPrefix.length ≤ 255 := by
        intro g' e1 e2
        unfold LabelGate.queuePrefix
        split
        · simp [e2]
        · simp [e1, e2, encodeLabelPrefix]; omega
      rw [LabelGate.consumeInbound] at hc
      split at hc
      · next hx => rw [hlab] at hx; cases hx
      · simp only [] at hc
        split at hc
        · cases hc; exact hq _ hlab hgq
        · cases hc
        · cases hc
    omega

theorem Held.weaken (h : Held env X T opened max W E b) (hE : E = true → E' = true) : Held env X T opened max W E' b :=
  ⟨h.pre, h.cur, fun hp => hE (h.inv.eof hp), h.inv.ring_, h.inv.max_, h.inv.open_, h.inv.settled,
    fun hl ev hev => (h.inv.auth hl ev hev).mono (fun _ h => h) hE⟩

/-- A bridge that dies early has nothing to commit. -/
theorem Held.dead {b' : TBridge I A R} (hf : b'.isFailed = true) (hev : b'.plain.evs = [])
    (heof : b'.pendingEof = true → E = true) (hp : W <+: b'.records.passed) : Held env X T opened max W E b' :=
  ⟨hp, fun h => absurd (Bridge.late_of_failed (b := b'.plain) hf) h, .dead hf hev heof⟩

theorem failWithRetire_isFailed (b : TBridge I A R) (r : LinkFail) : (b.failWithRetire r).isFailed = true := by
  rw [← plain_failed, plain_failWithRetire]; exact Bridge.failWithRetire_failed _ _

theorem fail_isFailed (b : TBridge I A R) (r : LinkFail) : (b.fail r).isFailed = true := by
  rw [← plain_failed, plain_fail]; exact Bridge.fail_failed _ _

theorem Held.kill {b1 : TBridge I A R} (hl : ¬ b1.plain.Late) (r : LinkFail) (heof : b1.pendingEof = true → E = true)
    (hp : W <+: b1.records.passed) : Held env X T opened max W E (b1.failWithRetire r) := by
  refine .dead (failWithRetire_isFailed _ _) ?_ ?_ (hp.trans (TKin.failWithRetire b1 r).passed)
  · rw [plain_failWithRetire]; exact Bridge.evs_failWithRetire_open _ hl
  · intro h
    have h : (b1.failWithRetire r).plain.pendingEof = true := h
    rw [plain_failWithRetire, Bridge.failWithRetire_eof] at h
    exact heof h

theorem Held.fail (h : Held env X T opened max W E b) (r : LinkFail) : Held env X T opened max W E (b.fail r) := by
  refine ⟨h.pre.trans (TKin.fail b r).passed, fun hn => ?_, by rw [plain_fail]; exact h.inv.fail r⟩
  exact absurd (Bridge.late_of_failed (b := (b.fail r).plain) (fail_isFailed b r)) hn

/-- One delivery before the stream is there. -/
theorem Held.recv (h : Held env X T opened max W E b) (hr : Ready b) (hX : ∀ l, X.label = some l → l.length ≤ 253)
    (hs : b.stream = none) (hl : ¬ b.plain.Late) (d : Bytes) :
    ((b.records.recv d).2 = .failed → ∃ W', Held env X T opened max W' E
      (({ b with records := (b.records.recv d).1 } : TBridge I A R).fail .transport)) ∧
    ((b.records.recv d).2 ≠ .failed → ∃ W', Held env X T opened max W' E { b with records := (b.records.recv d).1 }) := by
  by_cases hi : (b.records.inner.intake d).2 = .failed
  · obtain ⟨h1, h2, h3⟩ := b.records.recv_failed d hi
    refine ⟨fun _ => ⟨W, Held.fail ?_ _⟩, fun hn => absurd h1 hn⟩
    have e : ({ b with records := (b.records.recv d).1 } : TBridge I A R).plain = b.plain := by
      simp only [plain, h2]
    exact ⟨by rw [h3]; exact h.pre, by rw [e, h3]; exact h.cur, by rw [e]; exact h.inv⟩
  · cases hv : b.records.gate.validated with
    | true =>
      have e0 := b.records.recv_valid d hi hv
      rw [e0]
      refine ⟨fun hf => absurd hf hi, fun _ => ⟨W, ?_⟩⟩
      have e : ({ b with records := { b.records with inner := (b.records.inner.intake d).1 } } : TBridge I A R).plain = b.plain := by
        simp only [plain, LabeledTls.plain, b.records.inner.intake_accepted d]
      exact ⟨h.pre, by rw [e]; exact h.cur, by rw [e]; exact h.inv⟩
    | false =>
      obtain ⟨h1, h2, h3, h4, _⟩ := b.records.recv_unval d hi hv (roomy (h.inv.open_ hl) hr hX)
      have hI := h.inv.intake (data := b.records.surfaced d) hs hl
      rw [h.cur hl] at hI
      unfold Bridge.intakeHandshaking at hI
      simp only [] at hI
      have e : ({ b with records := (b.records.recv d).1 } : TBridge I A R).plain =
          { b.plain with records := (b.plain.records.recv (b.records.surfaced d)).1 } := by
        show ({ b.plain with records := (b.records.recv d).1.plain } : Bridge I A) = _
        rw [h1]; rfl
      cases hf : (b.records.plain.recv (b.records.surfaced d)).2 with
      | true =>
        have hf' : (b.plain.records.recv (b.records.surfaced d)).2 = true := hf
        rw [hf', if_pos rfl] at hI
        refine ⟨fun _ => ⟨b.records.passed ++ b.records.surfaced d, ?_⟩, fun hn => absurd (h3 hf) hn⟩
        refine ⟨?_, fun hn => absurd (Bridge.late_of_failed (b := TBridge.plain _) (fail_isFailed _ _)) hn, ?_⟩
        · rw [← h2]; exact (TKin.fail ({ b with records := (b.records.recv d).1 } : TBridge I A R) _).passed
        · rw [plain_fail, e]; exact hI
      | false =>
        have hf' : (b.plain.records.recv (b.records.surfaced d)).2 = false := hf
        rw [hf', if_neg (by simp)] at hI
        refine ⟨fun hx => absurd hx (by rw [h4 hf]; exact hi), fun _ => ⟨b.records.passed ++ b.records.surfaced d, ?_⟩⟩
        exact ⟨by rw [← h2]; exact List.prefix_refl _, fun _ => h2.symm, by rw [e]; exact hI⟩

theorem Held.intake (hX : ∀ l, X.label = some l → l.length ≤ 253) (fuel : Nat) : ∀ {b : TBridge I A R} {W : Bytes} (rest : Bytes),
    Held env X T opened max W E b → Ready b → b.stream = none → ¬ b.plain.Late →
    ∃ W', Held env X T opened max W' E (intakeHandshaking fuel b rest) := by
  induction fuel with
  | zero => intro b W rest h _ _ _; exact ⟨W, h⟩
  | succ fuel ih =>
    intro b W rest h hr hs hl
    have h0 := h.recv hr hX hs hl rest
    simp only [intakeHandshaking]
    split
    · next hf => exact h0.1 hf
    · next hf => exact h0.2 (by rw [hf]; simp)
    · next n hf =>
      obtain ⟨W', h1⟩ := h0.2 (by rw [hf]; simp)
      split
      · exact ⟨W', h1.pre, h1.cur, h1.inv⟩
      · split
        · exact ⟨W', h1⟩
        · refine ih _ h1 (hr.kin (TKin.set rfl Iff.rfl rfl (.recv _ _) id)) hs hl

/-- Input behind the end of the input brings nothing. -/
theorem loop_late (eof : Bool) (now : Nat) (fuel : Nat) : ∀ (b : TBridge I A R) (s : Stream I A) (rest : Bytes),
    b.phase = .recvClosed → b.stream = some s → Settled s →
    (pumpInLoop env.CI env.CA T eof now fuel b s rest).plain.Late ∧
    (∀ ev ∈ (pumpInLoop env.CI env.CA T eof now fuel b s rest).plain.evs, ev ∈ s.endpointEvents) ∧
    ((pumpInLoop env.CI env.CA T eof now fuel b s rest).plain.phase = .recvClosed →
      ∃ s', (pumpInLoop env.CI env.CA T eof now fuel b s rest).plain.stream = some s' ∧ Settled s') ∧
    (pumpInLoop env.CI env.CA T eof now fuel b s rest).pendingEof = b.pendingEof := by
  induction fuel with
  | zero =>
    intro b s rest hp hs hset
    refine ⟨.inl hp, ?_, fun _ => ⟨s, hs, hset⟩, rfl⟩
    intro ev hev
    simp only [pumpInLoop, Bridge.evs, plain, hs] at hev
    exact hev
  | succ fuel ih =>
    intro b s rest hp hs hset
    have hkill : ∀ (b1 : TBridge I A R) (r : LinkFail), (∀ ev ∈ b1.plain.evs, ev ∈ s.endpointEvents) → b1.pendingEof = b.pendingEof →
        (b1.failWithRetire r).plain.Late ∧ (∀ ev ∈ (b1.failWithRetire r).plain.evs, ev ∈ s.endpointEvents) ∧
        ((b1.failWithRetire r).plain.phase = .recvClosed → ∃ s', (b1.failWithRetire r).plain.stream = some s' ∧ Settled s') ∧
        (b1.failWithRetire r).pendingEof = b.pendingEof := by
      intro b1 r h1 h2
      have hf := failWithRetire_isFailed b1 r
      refine ⟨Bridge.late_of_failed (b := TBridge.plain _) hf, ?_, fun hc => ?_, ?_⟩
      · rw [plain_failWithRetire]; exact fun ev he => h1 ev (Bridge.evs_failWithRetire _ _ ev he)
      · have hc : (b1.failWithRetire r).phase = .recvClosed := hc
        simp [TBridge.isFailed, hc] at hf
      · rw [← h2]
        have : (b1.failWithRetire r).plain.pendingEof = b1.plain.pendingEof := by
          rw [plain_failWithRetire, Bridge.failWithRetire_eof]
        exact this
    simp only [pumpInLoop]
    split
    · refine hkill _ _ ?_ rfl
      intro ev hev
      simp only [Bridge.evs, plain, hs] at hev
      exact hev
    · have hd := Bridge.drainUnits_settled (CI := env.CI) (CA := env.CA) (T := T) (ring := none) (max := b.max) (now := now)
        ((b.accum ++ (b.records.recv rest).1.read.2).length + 1) (s := s) (buf := b.accum ++ (b.records.recv rest).1.read.2) hset
      generalize Bridge.drainUnits env.CI env.CA T none b.max now _ s _ = d at hd
      obtain ⟨s', left, res⟩ := d
      simp only [] at hd ⊢
      have hcl : ∀ (b1 : TBridge I A R), b1.phase = .recvClosed → b1.stream = some s' → b1.pendingEof = b.pendingEof →
          (if eof || b1.records.inner.peerClosed then b1.endOfInput env.CI env.CA s' now else b1).plain.Late ∧
          (∀ ev ∈ (if eof || b1.records.inner.peerClosed then b1.endOfInput env.CI env.CA s' now else b1).plain.evs, ev ∈ s.endpointEvents) ∧
          ((if eof || b1.records.inner.peerClosed then b1.endOfInput env.CI env.CA s' now else b1).plain.phase = .recvClosed →
            ∃ s2, (if eof || b1.records.inner.peerClosed then b1.endOfInput env.CI env.CA s' now else b1).plain.stream = some s2 ∧ Settled s2) ∧
          (if eof || b1.records.inner.peerClosed then b1.endOfInput env.CI env.CA s' now else b1).pendingEof = b.pendingEof := by
        intro b1 e1 e2 e3
        have hev1 : ∀ ev ∈ b1.plain.evs, ev ∈ s.endpointEvents := by
          intro ev hev
          simp only [Bridge.evs, plain, e2] at hev
          exact hd.2 ev hev
        split
        · unfold TBridge.endOfInput
          split
          · exact hkill _ _ hev1 e3
          · have h2 := hd.1.data (CI := env.CI) (CA := env.CA) [] now
            cases hh : s'.handleData env.CI env.CA [] now with
            | mk s2 o =>
              rw [hh] at h2
              cases o with
              | some e => exact hkill _ _ (fun ev hev => hd.2 ev (h2.2 ev hev)) e3
              | none =>
                simp only []
                have e : (({ b1 with stream := some s2 } : TBridge I A R).observeRecvFin) = { b1 with stream := some s2 } := by
                  simp only [TBridge.observeRecvFin, e1]
                rw [e]
                exact ⟨.inl e1, fun ev hev => hd.2 ev (h2.2 ev hev), fun _ => ⟨s2, rfl, h2.1⟩, e3⟩
        · exact ⟨.inl e1, hev1, fun _ => ⟨s', e2, hd.1⟩, e3⟩
      cases res with
      | corrupt => exact hkill _ _ (fun ev hev => hd.2 ev hev) rfl
      | refused => exact hkill _ _ (fun ev hev => hd.2 ev hev) rfl
      | all =>
        simp only []
        split
        · split
          · exact hcl ({ b with records := (b.records.recv rest).1.read.1, stream := some s', accum := left, pendingInbound := b.pendingInbound ++ rest } : TBridge I A R) hp rfl rfl
          · next n _ _ =>
            have hI := ih ({ b with records := (b.records.recv rest).1.read.1, stream := some s', accum := left } : TBridge I A R)
              s' (rest.drop n) hp rfl hd.1
            exact ⟨hI.1, fun ev hev => hd.2 ev (hI.2.1 ev hev), hI.2.2.1, hI.2.2.2⟩
        · exact hcl ({ b with records := (b.records.recv rest).1.read.1, stream := some s', accum := left } : TBridge I A R) hp rfl rfl

/-- The inbound pump of an open exchange. -/
theorem Held.loop (hX : ∀ l, X.label = some l → l.length ≤ 253) (eof : Bool) (now : Nat) (heof : eof = true → E = true) (fuel : Nat) : ∀ {b : TBridge I A R} {W : Bytes} (s : Stream I A) (rest : Bytes),
    Held env X T opened max W E b → Ready b → b.stream = some s → b.phase ≠ .handshaking → ¬ b.plain.Late →
    ((pumpInLoop env.CI env.CA T eof now fuel b s rest).records.inner.peerClosed = true → E = true) →
    ∃ W', Held env X T opened max W' E (pumpInLoop env.CI env.CA T eof now fuel b s rest) := by
  induction fuel with
  | zero =>
    intro b W s rest h _ _ _ _ _
    exact ⟨W, h.pre, h.cur, h.inv⟩
  | succ fuel ih =>
    intro b W s rest h hr hs hh hl hc
    have hpe : b.pendingEof = true → E = true := h.inv.eof
    have ht : b.plain.isTerminal = false := by
      cases ht : b.plain.isTerminal with
      | false => rfl
      | true => exact absurd (.inr ht) hl
    simp only [pumpInLoop] at hc ⊢
    by_cases hi : (b.records.inner.intake rest).2 = .failed
    · obtain ⟨h1, h2, h3⟩ := b.records.recv_failed rest hi
      rw [if_pos h1]
      exact ⟨W, Held.kill (b1 := { b with records := (b.records.recv rest).1 }) hl _ hpe (by rw [h3]; exact h.pre)⟩
    · obtain ⟨hA, hB⟩ := b.records.round rest hi (roomy (h.inv.open_ hl) hr hX)
      have hI : ∀ fin : Bool, (fin = true → E = true) → Bridge.BInv env X T opened none max
          (b.records.passed ++ b.records.surfaced rest) E (b.plain.pumpIn env.CI env.CA T s (b.records.surfaced rest) fin now) := by
        intro fin hf
        have := h.inv.pumpIn (input := b.records.surfaced rest) (now := now) hs hh ht (.inr (fun h => absurd h hl)) id hf
        rwa [h.cur hl] at this
      unfold Bridge.pumpIn at hI
      simp only [ht, Bool.false_eq_true, if_false] at hI
      cases hL : (b.records.plain.recv (b.records.surfaced rest)).2 with
      | true =>
        obtain ⟨h1, h2, h3⟩ := hA hL
        rw [if_pos h1]
        have hL' : (b.plain.records.recv (b.records.surfaced rest)).2 = true := hL
        have hI0 := hI false (by simp)
        rw [hL', if_pos rfl] at hI0
        refine ⟨b.records.passed ++ b.records.surfaced rest, ?_,
          fun hn => absurd (Bridge.late_of_failed (b := TBridge.plain _) (failWithRetire_isFailed _ _)) hn, ?_⟩
        · rw [← h3]; exact (TKin.failWithRetire ({ b with records := (b.records.recv rest).1 } : TBridge I A R) _).passed
        · rw [plain_failWithRetire]
          have e : ({ b with records := (b.records.recv rest).1 } : TBridge I A R).plain =
              { b.plain with records := (b.plain.records.recv (b.records.surfaced rest)).1 } := by
            show ({ b.plain with records := (b.records.recv rest).1.plain } : Bridge I A) = _
            rw [h2]; rfl
          rw [e]; exact hI0
      | false =>
        obtain ⟨h1, h2, h3, h4⟩ := hB hL
        have hL' : (b.plain.records.recv (b.records.surfaced rest)).2 = false := hL
        rw [if_neg (by rw [h1]; exact hi)] at hc ⊢
        rw [hL'] at hI
        simp only [Bool.false_eq_true, if_false] at hI
        have h3' : (b.records.recv rest).1.read.2 = (b.plain.records.recv (b.records.surfaced rest)).1.read.2 := h3
        rw [h3'] at hc ⊢
        have e0 : b.plain.accum = b.accum := rfl
        have e1 : b.plain.ring = none := rfl
        have e2 : b.plain.max = b.max := rfl
        rw [e0, e1, e2] at hI
        generalize Bridge.drainUnits env.CI env.CA T none b.max now _ s _ = d at hI hc ⊢
        obtain ⟨s', left, res⟩ := d
        simp only [] at hI hc ⊢
        have e : ∀ pend, ({ b with records := (b.records.recv rest).1.read.1, stream := some s', accum := left, pendingInbound := pend } : TBridge I A R).plain =
            { b.plain with records := (b.plain.records.recv (b.records.surfaced rest)).1.read.1, stream := some s', accum := left } := by
          intro pend
          show ({ b.plain with records := (b.records.recv rest).1.read.1.plain, stream := some s', accum := left } : Bridge I A) = _
          rw [h2]; rfl
        have hmore : ∀ pend, res = .all → Held env X T opened max (b.records.passed ++ b.records.surfaced rest) E
            ({ b with records := (b.records.recv rest).1.read.1, stream := some s', accum := left, pendingInbound := pend } : TBridge I A R) := by
          intro pend ha
          subst ha
          have hI0 := hI false (by simp)
          simp only [Bool.false_eq_true, if_false] at hI0
          exact ⟨by rw [← h4]; exact List.prefix_refl _, fun _ => h4.symm, by rw [e]; exact hI0⟩
        have hcl : ∀ pend, res = .all →
            ((if eof || ({ b with records := (b.records.recv rest).1.read.1, stream := some s', accum := left, pendingInbound := pend } : TBridge I A R).records.inner.peerClosed then
              ({ b with records := (b.records.recv rest).1.read.1, stream := some s', accum := left, pendingInbound := pend } : TBridge I A R).endOfInput env.CI env.CA s' now
              else { b with records := (b.records.recv rest).1.read.1, stream := some s', accum := left, pendingInbound := pend }).records.inner.peerClosed = true → E = true) →
            ∃ W', Held env X T opened max W' E
              (if eof || ({ b with records := (b.records.recv rest).1.read.1, stream := some s', accum := left, pendingInbound := pend } : TBridge I A R).records.inner.peerClosed then
              ({ b with records := (b.records.recv rest).1.read.1, stream := some s', accum := left, pendingInbound := pend } : TBridge I A R).endOfInput env.CI env.CA s' now
              else { b with records := (b.records.recv rest).1.read.1, stream := some s', accum := left, pendingInbound := pend }) := by
          intro pend ha hc
          have hm := hmore pend ha
          have eb := e pend
          have hst : ({ b with records := (b.records.recv rest).1.read.1, stream := some s', accum := left, pendingInbound := pend } : TBridge I A R).stream ≠ none := by simp
          have hpass : b.records.passed ++ b.records.surfaced rest =
            ({ b with records := (b.records.recv rest).1.read.1, stream := some s', accum := left, pendingInbound := pend } : TBridge I A R).records.passed := h4.symm
          generalize ({ b with records := (b.records.recv rest).1.read.1, stream := some s', accum := left, pendingInbound := pend } : TBridge I A R) = b1 at hm eb hc hst hpass ⊢
          split
          · next hfin =>
            rw [if_pos hfin] at hc
            have hfe : E = true := by
              simp only [Bool.or_eq_true] at hfin
              rcases hfin with hf | hf
              · exact heof hf
              · exact hc ((TKin.endOfInput b1 s' now hst).via.closed hf)
            have hI0 := hI true (fun _ => hfe)
            subst ha
            simp only [if_true] at hI0
            have hI0 : Bridge.BInv env X T opened none max (b.records.passed ++ b.records.surfaced rest) E
                (({ b.plain with records := (b.plain.records.recv (b.records.surfaced rest)).1.read.1, stream := some s', accum := left } : Bridge I A).endOfInput
                  env.CI env.CA s' now) := hI0
            rw [← eb, ← plain_endOfInput] at hI0
            have hrec : (¬ (b1.endOfInput env.CI env.CA s' now).plain.Late) →
                (b1.endOfInput env.CI env.CA s' now).records = b1.records := by
              intro hn
              unfold TBridge.endOfInput at hn ⊢
              split
              · next hx =>
                rw [if_pos hx] at hn
                exact absurd (Bridge.late_of_failed (b := TBridge.plain _) (failWithRetire_isFailed _ _)) hn
              · next hx =>
                rw [if_neg hx] at hn
                split
                · next hh =>
                  rw [hh] at hn
                  exact absurd (Bridge.late_of_failed (b := TBridge.plain _) (failWithRetire_isFailed _ _)) hn
                · exact observeRecvFin_records _
            refine ⟨_, ?_, fun hn => ?_, hI0⟩
            · rw [hpass]; exact (TKin.endOfInput b1 s' now hst).passed
            · rw [hrec hn]; exact hpass
          · exact ⟨_, hm⟩
        have hkill : (({ b with records := (b.records.recv rest).1.read.1, stream := some s', accum := left } : TBridge I A R).failWithRetire .decode).plain =
            ({ b.plain with records := (b.plain.records.recv (b.records.surfaced rest)).1.read.1, stream := some s', accum := left } : Bridge I A).failWithRetire .decode := by
          rw [plain_failWithRetire]
          exact congrArg (fun x => Bridge.failWithRetire x .decode) (e b.pendingInbound)
        have hpk : b.records.passed ++ b.records.surfaced rest <+:
            (({ b with records := (b.records.recv rest).1.read.1, stream := some s', accum := left } : TBridge I A R).failWithRetire .decode).records.passed := by
          rw [← h4]
          exact (TKin.failWithRetire ({ b with records := (b.records.recv rest).1.read.1, stream := some s', accum := left } : TBridge I A R) _).passed
        cases res with
        | corrupt =>
          exact ⟨_, hpk, fun hn => absurd (Bridge.late_of_failed (b := TBridge.plain _) (failWithRetire_isFailed _ _)) hn,
            by rw [hkill]; exact hI false (by simp)⟩
        | refused =>
          exact ⟨_, hpk, fun hn => absurd (Bridge.late_of_failed (b := TBridge.plain _) (failWithRetire_isFailed _ _)) hn,
            by rw [hkill]; exact hI false (by simp)⟩
        | all =>
          simp only [] at hc ⊢
          cases hq : (b.records.recv rest).2 with
          | pending n =>
            rw [hq] at hc
            simp only [] at hc ⊢
            by_cases hn : n = 0 ∧ (b.plain.records.recv (b.records.surfaced rest)).1.read.2 = []
            · simp only [if_pos hn] at hc ⊢
              exact hcl _ rfl hc
            · simp only [if_neg hn] at hc ⊢
              have hm := hmore b.pendingInbound rfl
              exact ih s' (rest.drop n) ⟨hm.pre, hm.cur, hm.inv⟩
                (hr.kin (TKin.set rfl (by simp [hs]) rfl ((LabeledTls.LKin.recv _ _).trans (.read _)) id)) rfl hh hl hc
          | done =>
            rw [hq] at hc
            exact hcl b.pendingInbound rfl hc
          | failed =>
            rw [hq] at hc
            exact hcl b.pendingInbound rfl hc
end TBridge
end Verif
