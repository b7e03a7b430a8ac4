import Verif.Proof.TlsRun
import Verif.Proof.BridgeWire
import Verif.Proof.CoordLife
/-
The exchange over TLS: what it has accepted for sending.
-/
namespace Verif
open Spec

namespace TlsRecords
variable {R : Rustls}

/-- Nothing was dropped; a close was asked for only if `fin`; and behind a close nothing waits. -/
structure Tidy (fin : Bool) (s : TlsRecords R) : Prop where
  clear : .cleared ∉ s.trace
  close : s.closeRequested = true ∨ .closed ∈ s.trace → fin = true
  done : .closed ∈ s.trace → s.pending = []

variable {fin : Bool} {s : TlsRecords R}

theorem Tidy.intake (h : Tidy fin s) (d : Bytes) : Tidy fin (s.intake d).1 := by
  obtain ⟨h1, _, h3, t, h4, h5, _⟩ := s.intake_spec d
  have hc : .closed ∈ (s.intake d).1.trace → .closed ∈ s.trace := by
    intro hm
    rw [h4] at hm
    rcases List.mem_append.1 hm with hm | hm
    · exact hm
    · rcases h5 _ hm with ⟨_, hx, _⟩ | ⟨_, hx⟩ <;> cases hx
  refine ⟨fun hm => ?_, fun hm => h.close (hm.imp (fun x => by rw [← h3]; exact x) hc), fun hm => by rw [h1]; exact h.done (hc hm)⟩
  rw [h4] at hm
  rcases List.mem_append.1 hm with hm | hm
  · exact h.clear hm
  · rcases h5 _ hm with ⟨_, hx, _⟩ | ⟨_, hx⟩ <;> cases hx

theorem Tidy.conn (h : Tidy fin s) (c : R.C) : Tidy fin { s with conn := c } := ⟨h.clear, h.close, h.done⟩

theorem Tidy.flushPending (h : Tidy fin s) : Tidy fin s.flushPending := by
  unfold TlsRecords.flushPending
  split
  · refine ⟨?_, fun hm => h.close (hm.imp id ?_), fun hm => ?_⟩
    · simp only [List.mem_append, not_or]; exact ⟨h.clear, by simp⟩
    · simp
    · have : .closed ∈ s.trace := by simpa using hm
      show s.pending.drop _ = []
      rw [h.done this, List.drop_nil]
  · exact h

theorem Tidy.flushClose (h : Tidy fin s) : Tidy fin s.flushClose := by
  have h1 := h.flushPending
  unfold TlsRecords.flushClose
  simp only []
  split
  · next hc =>
    simp only [Bool.and_eq_true, List.isEmpty_iff] at hc
    refine ⟨?_, fun _ => h1.close (.inl hc.1), fun _ => hc.2⟩
    simp only [List.mem_append, not_or]; exact ⟨h1.clear, by simp⟩
  · exact h1

theorem Tidy.transmitLoop (fuel : Nat) : ∀ {s : TlsRecords R} (out : Bytes), Tidy fin s → Tidy fin (transmitLoop fuel s out).1 := by
  induction fuel with
  | zero => intro s out h; exact h
  | succ fuel ih =>
    intro s out h
    simp only [TlsRecords.transmitLoop]
    split
    · exact h.flushClose.conn _
    · exact ih _ (h.flushClose.conn _)

theorem Tidy.sendCloseNotify (h : Tidy fin s) : Tidy true s.sendCloseNotify :=
  Tidy.flushClose ⟨h.clear, fun _ => rfl, h.done⟩

theorem Tidy.write (h : Tidy false s) (bs : Bytes) : Tidy false (s.write bs).1 := by
  unfold TlsRecords.write
  split
  · exact h
  · refine ⟨?_, fun hm => h.close (hm.imp id (by simp)), fun hm => ?_⟩
    · simp only [List.mem_append, not_or]; exact ⟨h.clear, by simp⟩
    · have : .closed ∈ s.trace := by simpa using hm
      have := h.close (.inr this)
      cases this
end TlsRecords

theorem uttered_append {C : Type} (t u : List (TlsEv C)) : uttered (t ++ u) = uttered t ++ uttered u := by
  induction t with
  | nil => rfl
  | cons e t ih => cases e <;> simp [uttered, ih]

/-- As long as nothing is dropped, what was accepted is what was handed over and what is unsent. -/
theorem uttered_unsent {R : Rustls} (t : List (TlsEv R.C)) (hk : ∀ pre e post, t = pre ++ e :: post → TlsRecords.EvOk R pre e)
    (hc : .cleared ∉ t) : uttered t ++ unsent t = accepted t := by
  obtain ⟨r, rfl⟩ : ∃ r, t = r.reverse := ⟨t.reverse, by simp⟩
  induction r with
  | nil => rfl
  | cons e r ih =>
    rw [List.reverse_cons] at hk hc ⊢
    have ih := ih (fun pre e' post he => hk pre e' (post ++ [e]) (by rw [he]; simp)) (fun hm => hc (List.mem_append_left _ hm))
    have he := hk r.reverse e [] rfl
    have hu : unsent (r.reverse ++ [e]) = unsentStep (unsent r.reverse) e := by simp [unsent]
    rw [uttered_append, accepted_snoc, hu, ← ih]
    cases e with
    | staged bs => simp [uttered, unsentStep, acceptedStep]
    | cleared => exact absurd (List.mem_append_right _ (by simp)) hc
    | wrote c bs =>
      obtain ⟨⟨tl, htl⟩, _⟩ := he
      simp [uttered, unsentStep, acceptedStep, ← htl]
    | closed => simp [uttered, unsentStep, acceptedStep]
    | fed bs => simp [uttered, unsentStep, acceptedStep]
    | ignored bs => simp [uttered, unsentStep, acceptedStep]

namespace LabeledTls
variable {R : Rustls} {fin : Bool} {s : LabeledTls R}
open TlsRecords (Tidy)

theorem tidy_flushLabel (h : Tidy fin s.inner) (hacc : fin = true → accepted s.flushLabel.inner.trace = accepted s.inner.trace) :
    Tidy fin s.flushLabel.inner := by
  unfold LabeledTls.flushLabel at hacc ⊢
  simp only [] at hacc ⊢
  split
  · exact h
  · next hp =>
    rw [if_neg hp] at hacc
    split
    · exact h
    · next hz =>
      rw [if_neg hz] at hacc
      cases fin with
      | false => exact h.write _
      | true =>
        have hacc := hacc rfl
        simp only [] at hacc ⊢
        unfold TlsRecords.write at hacc ⊢
        split
        · exact h
        · next hl =>
          exfalso
          rw [if_neg hl] at hacc
          simp only [accepted_snoc, acceptedStep] at hacc
          have := congrArg List.length hacc
          rw [List.length_append] at this
          omega

theorem tidy_recv (h : Tidy fin s.inner) (d : Bytes)
    (hacc : fin = true → accepted (s.recv d).1.inner.trace = accepted s.inner.trace) : Tidy fin (s.recv d).1.inner := by
  have h1 := h.intake d
  have ha := s.inner.intake_accepted d
  unfold LabeledTls.recv at hacc ⊢
  simp only [] at hacc ⊢
  split
  · exact h1
  · next hf =>
    rw [if_neg hf] at hacc
    split
    · next hv =>
      rw [if_pos hv] at hacc
      have key : (fin = true → accepted ({ s with inner := (s.inner.intake d).1 } : LabeledTls R).consumeLabel.1.inner.trace = accepted s.inner.trace) →
          Tidy fin ({ s with inner := (s.inner.intake d).1 } : LabeledTls R).consumeLabel.1.inner := by
        intro hacc
        have h2 : Tidy fin (s.inner.intake d).1.read.1 := h1.conn _
        unfold LabeledTls.consumeLabel at hacc ⊢
        simp only [] at hacc ⊢
        split
        · exact h2
        · next he =>
          rw [if_neg he] at hacc
          split
          · next hc =>
            rw [hc] at hacc
            simp only [] at hacc
            refine tidy_flushLabel h2 (fun hx => (hacc hx).trans ?_)
            exact ha.symm
          · exact h2
          · exact h2
      split
      · next hq => rw [if_pos hq] at hacc; exact key hacc
      · next hq => rw [if_neg hq] at hacc; exact key hacc
    · exact h1
end LabeledTls

namespace TBridge
variable {I A : Type} {R : Rustls} [DecidableEq I] {env : Env I A} {T : TEnv} {M : Bytes → Prop} {In : Prop} {label : Option Bytes}
open TlsRecords (Tidy)

/-- What is known of what an exchange has to say. -/
structure TWire (T : TEnv) (M : Bytes → Prop) (In : Prop) (label : Option Bytes) (b : TBridge I A R) : Prop where
  wire : Bridge.Wire T.B M In label none [] b.plain
  life : ∃ p0 n, Bridge.BLife p0 n b.plain
  opened : b.stream ≠ none → b.records.gate.isValidating = false
  quiet : b.stream = none → b.isFailed = false → b.sentAny = false ∧ b.finSent = false
  ready : Ready b
  tidy : b.isFailed = false → Tidy b.finSent b.records.inner

variable {b b' : TBridge I A R}

theorem TWire.able (h : TWire T M In label b) : Bridge.Able none b.plain where
  alive := fun s hs hf => by
    obtain ⟨p0, n, hl⟩ := h.life
    exact ⟨p0, n, hl.live hf s hs⟩
  opened := h.opened
  ring := fun _ => rfl
  began := fun hf hn hs => by
    have := (h.quiet hs hn).2
    have hf : b.finSent = true := hf
    rw [hf] at this; cases this

/-- A later state that still works. -/
theorem TWire.kin (h : TWire T M In label b) (k : TKin b b') (hw : Bridge.Wire T.B M In label none [] b'.plain)
    (hl : ∃ p0 n, Bridge.BLife p0 n b'.plain)
    (hq : b'.stream = none → b'.isFailed = false → b'.sentAny = false ∧ b'.finSent = false)
    (ht : b'.isFailed = false → Tidy b'.finSent b'.records.inner) : TWire T M In label b' where
  wire := hw
  life := hl
  opened := fun hn => k.kin.lab (h.opened (fun hs => hn (k.kin.nos.2 hs)))
  quiet := hq
  ready := h.ready.kin k
  tidy := ht

theorem TWire.fail (h : TWire T M In label b) (r : LinkFail) : TWire T M In label (b.fail r) := by
  have hf := fail_isFailed b r
  refine h.kin (.fail b r) (by rw [plain_fail]; exact h.wire.fail r) ?_ (fun _ hx => ?_) (fun hx => ?_)
  · obtain ⟨p0, n, hl⟩ := h.life
    exact ⟨p0, n, by rw [plain_fail]; exact hl.fail r⟩
  · rw [hf] at hx; cases hx
  · rw [hf] at hx; cases hx

/-- An exchange that fails on the way. -/
theorem TWire.kill {b1 : TBridge I A R} (h : TWire T M In label b) (k : TKin b b1) (hp : LOk label b1.plain.records)
    (hd : b1.plain.isFailed = true → b1.plain.records.outbound = []) (hc : ∃ p0 n, Cnt p0 n b1.plain.evs) (r : LinkFail) :
    TWire T M In label (b1.failWithRetire r) := by
  have hf := failWithRetire_isFailed b1 r
  refine h.kin (k.trans (.failWithRetire b1 r)) (by rw [plain_failWithRetire]; exact .failWithRetire' hp hd r) ?_ (fun _ hx => ?_) (fun hx => ?_)
  · obtain ⟨p0, n, hl⟩ := hc
    exact ⟨p0, n, by rw [plain_failWithRetire]; exact Bridge.failWithRetire_life hl r⟩
  · rw [hf] at hx; cases hx
  · rw [hf] at hx; cases hx

/-- There is room for the header. -/
theorem TWire.roomy (hX : ∀ l, label = some l → l.length ≤ 253) (h : TWire T M In label b) (hf : b.isFailed = false) : b.records.Roomy := by
  intro p g tail hv hc hpe
  have hpipe := h.wire.pipe
  have hgp : b.records.gate.outboundPrefix = [] := hpipe.pre
  have hlab : b.records.gate.label = effectiveLabel label := hpipe.label
  have hgo : ∀ g' : LabelGate, g'.outboundPrefix = [] → g'.label = effectiveLabel label →
      (g'.prefixQueued = true → g'.queuePrefix.outboundPrefix = []) ∧
      g'.queuePrefix.outboundPrefix.length ≤ 255 ∧ (effectiveLabel label = none → g'.queuePrefix.outboundPrefix = []) := by
    intro g' e1 e2
    unfold LabelGate.queuePrefix
    split
    · exact ⟨fun _ => e1, by simp [e1], fun _ => e1⟩
    · next hq =>
      refine ⟨fun hx => absurd hx hq, ?_, fun hx => by simp [e1, e2, hx]⟩
      rw [e2]
      cases hl : effectiveLabel label with
      | none => simp [e1]
      | some x =>
        have : x.length ≤ 253 := by
          apply hX
          unfold effectiveLabel at hl
          split at hl
          · split at hl
            · cases hl
            · simp only [Option.some.injEq] at hl; rw [← hl]
          · cases hl
        simp [e1, encodeLabelPrefix]; omega
  have hg : ∃ g' : LabelGate, g = g'.queuePrefix ∧ g'.outboundPrefix = [] ∧ g'.label = effectiveLabel label ∧
      g'.prefixQueued = b.records.gate.prefixQueued := by
    rw [LabelGate.consumeInbound] at hc
    split at hc
    · cases hc; exact ⟨_, rfl, hgp, hlab, rfl⟩
    · simp only [] at hc
      split at hc
      · cases hc; exact ⟨_, rfl, hgp, hlab, rfl⟩
      · cases hc
      · cases hc
  obtain ⟨g', rfl, e1, e2, e3⟩ := hg
  obtain ⟨k1, k2, k3⟩ := hgo g' e1 e2
  cases hq : b.records.gate.prefixQueued with
  | true => left; rw [k1 (by rw [e3, hq])]; rfl
  | false =>
    have hhead : b.plain.records.head = [] := by
      have : b.plain.records.gate.prefixQueued = false := hq
      rw [Labeled.head, if_neg (by simp [this])]
    cases hl : effectiveLabel label with
    | none => left; rw [k3 hl]; rfl
    | some x =>
      right
      have hsa : b.sentAny = false := by
        cases hsa : b.sentAny with
        | false => rfl
        | true =>
          exfalso
          have hst : b.stream ≠ none := fun hn => by
            have := (h.quiet hn hf).1
            rw [hsa] at this; cases this
          have := hpipe.head_open (h.opened hst)
          rw [hhead, header_eq hpipe] at this
          have hlab' : b.plain.records.gate.label = some x := hlab.trans hl
          rw [hlab'] at this
          simp [encodeLabelPrefix] at this
      have := h.wire.fresh hf hsa
      rw [hhead, List.nil_append] at this
      have hacc : accepted b.records.inner.trace = [] := this
      have hpl : b.records.inner.pending.length = 0 := by
        have := unsent_accepted b.records.inner.trace
        rw [hacc, ← h.ready.kept.pend] at this
        simpa using this
      have := h.ready.limit
      omega

/-- An exchange that has failed. -/
theorem TWire.ended (h : TWire T M In label b) (k : TKin b b') (hf : b'.isFailed = true) (hw : Bridge.Wire T.B M In label none [] b'.plain)
    (hl : ∃ p0 n, Bridge.BLife p0 n b'.plain) : TWire T M In label b' :=
  h.kin k hw hl (fun _ hx => by rw [hf] at hx; cases hx) (fun hx => by rw [hf] at hx; cases hx)

theorem TWire.recv (hX : ∀ l, label = some l → l.length ≤ 253) (h : TWire T M In label b) (hs : b.stream = none)
    (hf : b.isFailed = false) (d : Bytes) :
    ((b.records.recv d).2 = .failed → TWire T M In label (({ b with records := (b.records.recv d).1 } : TBridge I A R).fail .transport)) ∧
    ((b.records.recv d).2 ≠ .failed → TWire T M In label { b with records := (b.records.recv d).1 }) := by
  have k : TKin b { b with records := (b.records.recv d).1 } := TKin.set rfl Iff.rfl rfl (.recv _ _) id
  obtain ⟨q1, q2⟩ := h.quiet hs hf
  by_cases hi : (b.records.inner.intake d).2 = .failed
  · obtain ⟨h1, h2, h3⟩ := b.records.recv_failed d hi
    refine ⟨fun _ => ?_, fun hn => absurd h1 hn⟩
    have e : ({ b with records := (b.records.recv d).1 } : TBridge I A R).plain = b.plain := by simp only [plain, h2]
    refine h.ended (k.trans (.fail _ _)) (fail_isFailed _ _) ?_ ?_
    · rw [plain_fail, e]; exact h.wire.fail _
    · obtain ⟨p0, n, hl⟩ := h.life
      exact ⟨p0, n, by rw [plain_fail, e]; exact hl.fail _⟩
  · cases hv : b.records.gate.validated with
    | true =>
      have e0 := b.records.recv_valid d hi hv
      rw [e0] at k ⊢
      refine ⟨fun hf => absurd hf hi, fun _ => ?_⟩
      have e : ({ b with records := { b.records with inner := (b.records.inner.intake d).1 } } : TBridge I A R).plain = b.plain := by
        simp only [plain, LabeledTls.plain, b.records.inner.intake_accepted d]
      exact h.kin k (by rw [e]; exact h.wire) (by rw [e]; exact h.life) h.quiet (fun hx => (h.tidy hx).intake d)
    | false =>
      obtain ⟨h1, h2, h3, h4, _⟩ := b.records.recv_unval d hi hv (h.roomy hX hf)
      have e : ({ b with records := (b.records.recv d).1 } : TBridge I A R).plain =
          { b.plain with records := (b.plain.records.recv (b.records.surfaced d)).1 } := by
        show ({ b.plain with records := (b.records.recv d).1.plain } : Bridge I A) = _
        rw [h1]; rfl
      have hw := h.wire.recv (b.records.surfaced d) hf _ rfl rfl rfl (fun hx => by
        have hx : b.sentAny = true := hx
        rw [q1] at hx; cases hx)
      have hl : ∃ p0 n, Bridge.BLife p0 n ({ b.plain with records := (b.plain.records.recv (b.records.surfaced d)).1 } : Bridge I A) := by
        obtain ⟨p0, n, hl⟩ := h.life
        exact ⟨p0, n, hl.cnt, fun _ s hx => by
          have hx : b.stream = some s := hx
          rw [hs] at hx; cases hx⟩
      rw [← e] at hw hl
      have key : TWire T M In label { b with records := (b.records.recv d).1 } := by
        refine h.kin k hw hl h.quiet (fun hx => ?_)
        show Tidy b.finSent (b.records.recv d).1.inner
        refine LabeledTls.tidy_recv (h.tidy hx) d (fun hc => ?_)
        rw [q2] at hc; cases hc
      exact ⟨fun _ => key.fail _, fun _ => key⟩

theorem TWire.intake (hX : ∀ l, label = some l → l.length ≤ 253) (fuel : Nat) : ∀ {b : TBridge I A R} (rest : Bytes),
    TWire T M In label b → b.stream = none → b.isFailed = false → TWire T M In label (intakeHandshaking fuel b rest) := by
  induction fuel with
  | zero => intro b rest h _ _; exact h
  | succ fuel ih =>
    intro b rest h hs hf
    have h0 := h.recv hX hs hf rest
    simp only [intakeHandshaking]
    split
    · next hx => exact h0.1 hx
    · next hx => exact h0.2 (by rw [hx]; simp)
    · next n hx =>
      have h1 := h0.2 (by rw [hx]; simp)
      split
      · exact ⟨h1.wire, h1.life, h1.opened, h1.quiet, ⟨h1.ready.kept, h1.ready.limit⟩, h1.tidy⟩
      · split
        · exact h1
        · exact ih _ h1 hs hf

omit [DecidableEq I] in
theorem observeRecvFin_same (b : TBridge I A R) : b.observeRecvFin.records = b.records ∧ b.observeRecvFin.stream = b.stream ∧
    b.observeRecvFin.finSent = b.finSent ∧ b.observeRecvFin.sentAny = b.sentAny ∧ b.observeRecvFin.isFailed = b.isFailed := by
  unfold TBridge.observeRecvFin
  split
  · next hp => exact ⟨rfl, rfl, rfl, rfl, by simp [isFailed, hp]⟩
  · next hp => exact ⟨rfl, rfl, rfl, rfl, by simp [isFailed, hp]⟩
  · exact ⟨rfl, rfl, rfl, rfl, rfl⟩

omit [DecidableEq I] in
theorem observeSendFin_same (b : TBridge I A R) : b.observeSendFin.records = b.records ∧ b.observeSendFin.stream = b.stream ∧
    b.observeSendFin.finSent = b.finSent ∧ b.observeSendFin.sentAny = b.sentAny ∧ b.observeSendFin.isFailed = b.isFailed := by
  unfold TBridge.observeSendFin
  split
  · next hp => exact ⟨rfl, rfl, rfl, rfl, by simp [isFailed, hp]⟩
  · next hp => exact ⟨rfl, rfl, rfl, rfl, by simp [isFailed, hp]⟩
  · exact ⟨rfl, rfl, rfl, rfl, rfl⟩

theorem TWire.endOfInput (hA : In → ∀ seq m, encodeTyped env.CI env.CA (.ack seq []) = .ok m → M m) (h : TWire T M In label b) {s : Stream I A} (hs : b.stream = some s) (hf : b.isFailed = false) (now : Nat) :
    TWire T M In label (b.endOfInput env.CI env.CA s now) := by
  have hd : b.plain.isFailed = true → b.plain.records.outbound = [] := h.wire.dead
  obtain ⟨p0, n, hl⟩ := h.life
  have ha := hl.live hf s hs
  unfold TBridge.endOfInput
  split
  · exact h.kill (.refl b) h.wire.pipe hd ⟨p0, n, hl.cnt⟩ _
  · cases hh : s.handleData env.CI env.CA [] now with
    | mk s' o =>
      have k : TKin b ({ b with stream := some s' } : TBridge I A R) := TKin.set rfl (by simp [hs]) rfl (.refl _) id
      cases o with
      | some e =>
        refine h.kill k h.wire.pipe hd ⟨p0, n, ?_⟩ _
        rcases ha.life.data hh with ⟨hc, _⟩ | ⟨_, _, he⟩
        · cases hc
        · show Cnt p0 n s'.endpointEvents
          rw [he]; exact hl.cnt.none
      | none =>
        obtain ⟨rfl, hst, _⟩ := eof_settled hh
        obtain ⟨e1, e2, e3, e4, e5⟩ := observeRecvFin_same ({ b with stream := some s' } : TBridge I A R)
        refine h.kin (k.trans (.observeRecvFin _ (by simp))) ?_ ⟨p0, n, ?_, fun _ s2 hs2 => ?_⟩ (fun hx => ?_) (fun hx => ?_)
        · have e6 : (({ b with stream := some s' } : TBridge I A R).observeRecvFin).precompressed = b.precompressed := by
            unfold TBridge.observeRecvFin; split <;> rfl
          refine h.wire.turn (s := s') ?_ ?_ ?_ ?_ (fun _ => ?_)
          · show (TBridge.observeRecvFin _).records.plain = _
            rw [e1]; rfl
          · exact e5
          · exact e4
          · exact e2
          · show Bridge.Due T.B M In (({ b with stream := some s' } : TBridge I A R).observeRecvFin).precompressed s'
            rw [e6]
            exact (h.wire.due hf s' hs).data hA hh
        · show Cnt p0 n (TBridge.plain _).evs
          rw [plain_observeRecvFin, Bridge.evs_observeRecvFin]
          have := hl.cnt
          simpa [Bridge.evs, plain, hs] using this
        · have hs2 : (({ b with stream := some s' } : TBridge I A R).observeRecvFin).stream = some s2 := hs2
          rw [e2] at hs2
          cases hs2
          refine ⟨ha.life, fun x => ha.any ?_, fun x => ha.fin ?_, fun _ => hst, fun hp => ?_⟩
          · have x : (({ b with stream := some s' } : TBridge I A R).observeRecvFin).sentAny = true := x
            rw [e4] at x; exact x
          · have x : (({ b with stream := some s' } : TBridge I A R).observeRecvFin).finSent = true := x
            rw [e3] at x; exact x
          · show (({ b with stream := some s' } : TBridge I A R).observeRecvFin).finSent = true
            rw [e3]
            apply ha.send
            have hp : (({ b with stream := some s' } : TBridge I A R).observeRecvFin).phase = .sendClosed ∨
              (({ b with stream := some s' } : TBridge I A R).observeRecvFin).phase = .bothClosed := hp
            unfold TBridge.observeRecvFin at hp
            split at hp
            · simp at hp
            · next hq => exact .inl hq
            · exact hp
        · have hx : (({ b with stream := some s' } : TBridge I A R).observeRecvFin).stream = none := hx
          rw [e2] at hx; cases hx
        · show Tidy (({ b with stream := some s' } : TBridge I A R).observeRecvFin).finSent (({ b with stream := some s' } : TBridge I A R).observeRecvFin).records.inner
          rw [e1, e3]
          exact h.tidy hf

theorem TWire.loop (hA : In → ∀ seq m, encodeTyped env.CI env.CA (.ack seq []) = .ok m → M m) (hX : ∀ l, label = some l → l.length ≤ 253) (eof : Bool) (now : Nat) (fuel : Nat) :
    ∀ {b : TBridge I A R} (s : Stream I A) (rest : Bytes), TWire T M In label b → b.stream = some s → b.isFailed = false →
    TWire T M In label (pumpInLoop env.CI env.CA T eof now fuel b s rest) := by
  induction fuel with
  | zero =>
    intro b s rest h _ _
    exact ⟨h.wire, h.life, h.opened, h.quiet, ⟨h.ready.kept, h.ready.limit⟩, h.tidy⟩
  | succ fuel ih =>
    intro b s rest h hs hf
    have hop : b.plain.records.isHandshaking = false := h.opened (by rw [hs]; simp)
    have hdead : b.plain.isFailed = true → b.plain.records.outbound = [] := h.wire.dead
    obtain ⟨p0, n, hl⟩ := h.life
    have ha := hl.live hf s hs
    have k0 : TKin b { b with records := (b.records.recv rest).1 } := TKin.set rfl Iff.rfl rfl (.recv _ _) id
    simp only [pumpInLoop]
    by_cases hi : (b.records.inner.intake rest).2 = .failed
    · obtain ⟨h1, h2, h3⟩ := b.records.recv_failed rest hi
      rw [if_pos h1]
      refine h.kill k0 ?_ ?_ ⟨p0, n, hl.cnt⟩ _
      · show LOk label (b.records.recv rest).1.plain
        rw [h2]; exact h.wire.pipe
      · intro hx
        have hx : b.isFailed = true := hx
        rw [hf] at hx; cases hx
    · obtain ⟨hAA, hB⟩ := b.records.round rest hi (h.roomy hX hf)
      have hpipe := (h.wire.pipe.recv (b.records.surfaced rest)).1
      cases hL : (b.records.plain.recv (b.records.surfaced rest)).2 with
      | true =>
        obtain ⟨h1, h2, h3⟩ := hAA hL
        rw [if_pos h1]
        refine h.kill k0 ?_ ?_ ⟨p0, n, hl.cnt⟩ _
        · show LOk label (b.records.recv rest).1.plain
          rw [h2]; exact hpipe
        · intro hx
          have hx : b.isFailed = true := hx
          rw [hf] at hx; cases hx
      | false =>
        obtain ⟨h1, h2, h3, h4⟩ := hB hL
        rw [if_neg (by rw [h1]; exact hi)]
        cases hd : Bridge.drainUnits env.CI env.CA T none b.max now ((b.accum ++ (b.records.recv rest).1.read.2).length + 1) s
            (b.accum ++ (b.records.recv rest).1.read.2) with
        | mk s' d =>
        obtain ⟨left, res⟩ := d
        obtain ⟨g1, g2⟩ := Bridge.drainUnits_life _ ha.life hd
        simp only []
        have k : ∀ pend, TKin b ({ b with records := (b.records.recv rest).1.read.1, stream := some s', accum := left, pendingInbound := pend } : TBridge I A R) :=
          fun pend => TKin.set rfl (by simp [hs]) rfl ((LabeledTls.LKin.recv _ _).trans (.read _)) id
        have hkill : TWire T M In label (({ b with records := (b.records.recv rest).1.read.1, stream := some s', accum := left } : TBridge I A R).failWithRetire .decode) := by
          refine h.kill (k b.pendingInbound) ?_ ?_ ⟨p0, n, g1⟩ _
          · show LOk label (b.records.recv rest).1.read.1.plain
            rw [h2]; exact hpipe.read
          · intro hx
            have hx : b.isFailed = true := hx
            rw [hf] at hx; cases hx
        have hmore : ∀ pend, res = .all → TWire T M In label
            ({ b with records := (b.records.recv rest).1.read.1, stream := some s', accum := left, pendingInbound := pend } : TBridge I A R) := by
          intro pend hres
          obtain ⟨g2, g3, g4⟩ := g2 hres
          refine h.kin (k pend) ?_ ⟨p0, n, g1, fun _ s2 hs2 => ?_⟩ (fun hx => by cases hx) (fun _ => ?_)
          · have hw := h.wire.recv (b.records.surfaced rest) hf ((b.plain.records.recv (b.records.surfaced rest)).1.read.1) rfl rfl rfl (fun _ => hop)
            subst hres
            exact hw.turn h2 rfl rfl rfl (fun _ => (h.wire.due hf s hs).drain hA _ hd)
          · cases hs2
            exact ⟨g2, fun x => g3 (ha.any x), fun x => g3 (ha.fin x), fun x => g4 (ha.recv x), ha.send⟩
          · refine Tidy.conn (LabeledTls.tidy_recv (h.tidy hf) rest (fun _ => ?_)) _
            have ho := (h.wire.pipe.recv_open hop (b.records.surfaced rest)).1
            have h2' := congrArg Labeled.outbound h2
            exact h2'.trans ho
        have hcl : ∀ b1 : TBridge I A R, TWire T M In label b1 → b1.stream = some s' → b1.isFailed = false →
            TWire T M In label (if eof || b1.records.inner.peerClosed then b1.endOfInput env.CI env.CA s' now else b1) := by
          intro b1 hb1 e1 e2
          split
          · exact hb1.endOfInput hA e1 e2 now
          · exact hb1
        cases res with
        | corrupt => exact hkill
        | refused => exact hkill
        | all =>
          simp only []
          cases hq : (b.records.recv rest).2 with
          | pending m =>
            simp only []
            split
            · exact hcl _ (hmore _ rfl) rfl hf
            · exact ih s' _ (hmore b.pendingInbound rfl) rfl hf
          | done => exact hcl _ (hmore b.pendingInbound rfl) rfl hf
          | failed => exact hcl _ (hmore b.pendingInbound rfl) rfl hf

theorem TWire.pumpIn (hA : In → ∀ seq m, encodeTyped env.CI env.CA (.ack seq []) = .ok m → M m) (hX : ∀ l, label = some l → l.length ≤ 253) (h : TWire T M In label b) {s : Stream I A} (hs : b.stream = some s)
    (input : Bytes) (eof : Bool) (now : Nat) : TWire T M In label (b.pumpIn env.CI env.CA T s input eof now) := by
  unfold TBridge.pumpIn
  split
  · exact h
  · next ht =>
    refine h.loop hA hX eof now _ s input hs ?_
    cases hf : b.isFailed with
    | false => rfl
    | true => exact absurd (Bridge.terminal_of_failed (b := b.plain) hf) ht

theorem TWire.pend (h : TWire T M In label b) (p : Bytes) : TWire T M In label ({ b with pendingInbound := p } : TBridge I A R) :=
  ⟨h.wire, h.life, h.opened, h.quiet, ⟨h.ready.kept, h.ready.limit⟩, h.tidy⟩

theorem TWire.feed (hA : In → ∀ seq m, encodeTyped env.CI env.CA (.ack seq []) = .ok m → M m) (hX : ∀ l, label = some l → l.length ≤ 253) (h : TWire T M In label b) (data : Bytes) (now : Nat) :
    TWire T M In label (b.feed env.CI env.CA T data now) := by
  unfold TBridge.feed
  split
  · exact h
  · next ht =>
    have hf : b.isFailed = false := by
      cases hf : b.isFailed with
      | false => rfl
      | true => exact absurd (Bridge.terminal_of_failed (b := b.plain) hf) ht
    split
    · next hs =>
      split
      · split
        · exact h.fail _
        · have h2 : TWire T M In label ({ b with pendingEof := true } : TBridge I A R) :=
            ⟨h.wire.same rfl rfl rfl rfl rfl, h.life.imp fun p0 hx => hx.imp fun n hx => ⟨hx.cnt, fun hf s hs => by
              have ha := hx.live hf s hs
              exact ⟨ha.life, ha.any, ha.fin, ha.recv, ha.send⟩⟩, h.opened, h.quiet, ⟨h.ready.kept, h.ready.limit⟩, h.tidy⟩
          exact h2.intake hX 1 [] hs hf
      · exact h.intake hX _ _ hs hf
    · next s hs => exact (h.pend []).pumpIn hA hX hs _ _ now

theorem TWire.replay (hA : In → ∀ seq m, encodeTyped env.CI env.CA (.ack seq []) = .ok m → M m) (hX : ∀ l, label = some l → l.length ≤ 253) (h : TWire T M In label b) (now : Nat) :
    TWire T M In label (b.replay env.CI env.CA T now) := by
  unfold TBridge.replay
  split
  · exact h
  · next s hs =>
    split
    · exact h
    · exact (h.pend []).pumpIn hA hX hs _ _ now

theorem tidy_closeSend (h : Tidy b.finSent b.records.inner) (s : Stream I A) (hf : (b.closeSend s).isFailed = false) :
    Tidy (b.closeSend s).finSent (b.closeSend s).records.inner := by
  unfold TBridge.closeSend at hf ⊢
  split
  · next hx => rw [if_pos hx, failWithRetire_isFailed] at hf; cases hf
  · split
    · obtain ⟨e1, _, e3, _⟩ := observeSendFin_same ({ b with records := b.records.sendCloseNotify, finSent := true } : TBridge I A R)
      rw [e1, e3]
      exact h.sendCloseNotify
    · exact h

omit [DecidableEq I] in
theorem tidy_admit {r : LabeledTls R} (h : Tidy false r.inner) (u : Bytes × Bytes) : Tidy false (admit r u).1.inner := by
  unfold admit
  simp only []
  split
  · exact (h.write u.1).write u.2
  · exact h.write u.1

theorem TWire.pumpOut (h : TWire T M In label b) (now : Nat) : TWire T M In label (b.pumpOut T now) := by
  have k : TKin b (b.pumpOut T now) := .pumpOut b now
  have hwl : Bridge.Wire T.B M In label none [] (b.pumpOut T now).plain ∧ ∃ p0 n, Bridge.BLife p0 n (b.pumpOut T now).plain := by
    obtain ⟨p0, n, hl⟩ := h.life
    cases pumpOut_plain (T := T) b now with
    | plain _ hc => exact ⟨(h.wire.pumpOut h.able hc).1, p0, n, Bridge.pumpOut_life hl hc⟩
    | refused s s' chunks _ hs hf hsf hr he =>
      rw [he]
      refine ⟨.failWithRetire' (b := { b.plain with stream := some s', sentAny := true }) h.wire.pipe h.wire.dead _, p0, n,
        Bridge.failWithRetire_life ?_ _⟩
      have := Bridge.poll_length s now
      rw [hr] at this
      have hc := hl.cnt
      have hb : b.plain.evs = s.endpointEvents := by simp [Bridge.evs, plain, hs]
      rw [hb] at hc
      show Cnt p0 n s'.endpointEvents
      rcases this with g | g <;> simp only [] at g <;> rw [g]
      · exact hc
      · exact hc.none
  refine h.kin k hwl.1 hwl.2 (fun hn hf => ?_) (fun hf => ?_)
  · have hn0 : b.stream = none := k.kin.nos.1 hn
    unfold TBridge.pumpOut at hf ⊢
    split at hf
    · rw [fail_isFailed] at hf; cases hf
    · next hx =>
      rw [if_neg hx]
      rw [hn0] at hf ⊢
      exact h.quiet hn0 hf
  · unfold TBridge.pumpOut at hf ⊢
    split at hf
    · rw [fail_isFailed] at hf; cases hf
    · next hx =>
      rw [if_neg hx]
      cases hs : b.stream with
      | none =>
        rw [hs] at hf
        exact h.tidy hf
      | some s =>
        rw [hs] at hf
        simp only [] at hf ⊢
        split at hf
        · rw [failWithRetire_isFailed] at hf; cases hf
        · next h1 =>
          rw [if_neg h1]
          simp only [Bool.or_eq_true, not_or, Bool.not_eq_true] at h1
          split at hf
          · rw [failWithRetire_isFailed] at hf; cases hf
          · next h2 =>
            rw [if_neg h2]
            cases hp : s.pollTransmit now with
            | mk s' o =>
              rw [hp] at hf
              cases o with
              | none => exact tidy_closeSend (b := { b with stream := some s' }) (h.tidy h1.1) s' hf
              | some chunks =>
                simp only [] at hf ⊢
                have hfin : b.finSent = false := by
                  obtain ⟨p0, n, hl⟩ := h.life
                  have ha := hl.live h1.1 s hs
                  cases hx : b.finSent with
                  | false => rfl
                  | true => exact (Bridge.sent_silent ha.life (ha.fin hx) hp).elim
                have ht := h.tidy h1.1
                rw [hfin] at ht
                split at hf
                · next hw =>
                  rw [if_pos hw]
                  refine tidy_closeSend ?_ s' hf
                  show Tidy b.finSent _
                  rw [hfin]
                  exact tidy_admit ht _
                · rw [failWithRetire_isFailed] at hf; cases hf

section
variable [DecidableEq A] {cfg : Cfg I A}

theorem TWire.commit (h : TWire T M In label b) (cmp : CmpOptions) (now : Nat) (e : Ep I A) {s : Stream I A} {ev : PayloadEvent I A}
    {rest : List (PayloadEvent I A)} (hs : b.stream = some s) (he : s.endpointEvents = ev :: rest)
    (hR : In → ∀ e' p, e.handleStreamEvent cfg env (.payload ev) now = (e', some (.sendResponse p)) → M (Ep.encodeBytes env (.pushPull p))) :
    TWire T M In label (commitOne cfg env T cmp now e b s ev rest).2 := by
  obtain ⟨p0, n, hl⟩ := h.life
  have hcnt := hl.cnt
  have hev : b.plain.evs = ev :: rest := by simp [Bridge.evs, plain, hs, he]
  rw [hev] at hcnt
  have hn : Cnt p0 (n + 1) rest := ⟨by have := hcnt.1; simp at this ⊢; omega, fun ev' h' => hcnt.2 ev' (List.mem_cons_of_mem _ h')⟩
  have k : ∀ s1 : Stream I A, TKin b ({ b with stream := some s1 } : TBridge I A R) :=
    fun s1 => TKin.set rfl (by simp [hs]) rfl (.refl _) id
  unfold TBridge.commitOne
  simp only []
  split
  · refine h.kin (k _) (h.wire.turn rfl rfl rfl rfl (fun hf => (h.wire.due hf s hs).none_)) ⟨p0, n + 1, hn, fun hf s2 hs2 => ?_⟩ (fun hx => by cases hx) h.tidy
    cases hs2
    have ha := hl.live hf s hs
    exact ⟨(ha.life.take he).2.1, ha.any, ha.fin, ha.recv, ha.send⟩
  · next p hresp =>
    refine TWire.pumpOut ?_ now
    have hl2 := Bridge.respond_life (cfg := cfg) (env := env) (body := compressPayload T.B cmp (Ep.encodeBytes env (.pushPull p)))
      (dl := now + cfg.streamTimeout) (b := b.plain) hl hs he hresp
    refine h.kin (TKin.set rfl (by simp [hs]) rfl (.refl _) id)
      (h.wire.turn rfl rfl rfl rfl (fun hf => Bridge.due_respond (h.wire.due hf s hs) (hl.live hf s hs).life he hresp (fun hi => hR hi _ _ hresp)))
      ⟨p0, n + 1, hl2⟩ (fun hx => by cases hx) h.tidy
  · exact h.kill (k { s with endpointEvents := rest }) h.wire.pipe h.wire.dead ⟨p0, n + 1, hn⟩ _

omit [DecidableEq I] in
theorem mem_drain [DecidableEq I] (cmp : CmpOptions) (now : Nat) (fuel : Nat) : ∀ {b : TBridge I A R} (e : Ep I A) (log : List (Ep.Op I A)) {c : Ep.Op I A},
    c ∈ log → c ∈ (drainEvents cfg env T cmp now fuel e b log).2.2 := by
  induction fuel with
  | zero => intro b e log c h; exact h
  | succ fuel ih =>
    intro b e log c h
    simp only [drainEvents]
    split
    · exact h
    · split
      · exact h
      · exact ih _ _ (List.mem_append_left _ h)

theorem TWire.drain (cmp : CmpOptions) (now : Nat) (fuel : Nat) : ∀ {b : TBridge I A R} (e : Ep I A) (log : List (Ep.Op I A)),
    TWire T M In label b →
    (In → ∀ (e1 : Ep I A) ev t e' p, .streamEvent (.payload ev) t ∈ (drainEvents cfg env T cmp now fuel e b log).2.2 →
      e1.handleStreamEvent cfg env (.payload ev) t = (e', some (.sendResponse p)) → M (Ep.encodeBytes env (.pushPull p))) →
    TWire T M In label (drainEvents cfg env T cmp now fuel e b log).2.1 := by
  induction fuel with
  | zero => intro b e log h _; exact h
  | succ fuel ih =>
    intro b e log h hR
    simp only [drainEvents] at hR ⊢
    split
    · exact h
    · next s hs =>
      split
      · exact h
      · next ev rest he =>
        rw [hs] at hR
        simp only [he] at hR
        exact ih _ _ (h.commit cmp now e hs he (fun hi e' p hr =>
          hR hi e ev now e' p (mem_drain _ _ _ _ _ (List.mem_append_right _ (by simp))) hr)) hR

theorem TWire.mint (h : TWire T M In label b) (s : Stream I A) (hp : b.phase = .handshaking)
    (hv : b.records.isHandshaking = false) (hs : b.stream = none) (hlife : Life s.phase 0 s) (hev : s.endpointEvents = [])
    (hdue : Bridge.Due T.B M In false s) :
    TWire T M In label (b.promote s) := by
  have hf : b.isFailed = false := by simp [isFailed, hp]
  obtain ⟨q1, q2⟩ := h.quiet hs hf
  refine ⟨h.wire.turn (s := s) rfl ?_ rfl rfl (fun _ => ?_), ⟨s.phase, 0, ?_, fun _ s' hs' => ?_⟩, fun _ => ?_, fun hx => (by cases hx),
    ⟨h.ready.kept, h.ready.limit⟩, fun _ => h.tidy hf⟩
  · show false = b.isFailed
    rw [hf]
  · show Bridge.Due T.B M In b.precompressed s
    rw [show b.precompressed = false from h.wire.bare hf hs]
    exact hdue
  · have : (b.promote s).plain.evs = [] := hev
    rw [this]; exact ⟨by simp, by simp⟩
  · cases hs'
    refine ⟨hlife, fun hx => ?_, fun hx => ?_, fun hx => ?_, fun hx => ?_⟩
    · have hx : b.sentAny = true := hx
      rw [q1] at hx; cases hx
    · have hx : b.finSent = true := hx
      rw [q2] at hx; cases hx
    · rcases hx with hx | hx <;> cases hx
    · rcases hx with hx | hx <;> cases hx
  · unfold LabeledTls.isHandshaking at hv
    simp only [Bool.or_eq_false_iff] at hv
    exact hv.1

theorem TWire.transmit (h : TWire T M In label b) : TWire T M In label b.transmit.1 := by
  have k : TKin b b.transmit.1 := TKin.set rfl Iff.rfl rfl (.transmit _) id
  refine h.kin k (by rw [plain_transmit]; exact h.wire) (by rw [plain_transmit]; exact h.life) h.quiet (fun hf => ?_)
  exact Tidy.transmitLoop _ _ (h.tidy hf)

theorem TWire.step (hX : ∀ l, label = some l → l.length ≤ 253) (h : TWire T M In label b) (op : TOp I A)
    (hA : In → ∀ seq m, encodeTyped env.CI env.CA (.ack seq []) = .ok m → M m)
    (hR : In → ∀ (e : Ep I A) ev t e' p, .streamEvent (.payload ev) t ∈ (b.step cfg env T op).2.1 →
      e.handleStreamEvent cfg env (.payload ev) t = (e', some (.sendResponse p)) → M (Ep.encodeBytes env (.pushPull p)))
    (hm : ∀ s now, op = .mint s now → Life s.phase 0 s ∧ s.endpointEvents = [] ∧ Bridge.Due T.B M In false s) :
    TWire T M In label (b.step cfg env T op).1 := by
  cases op with
  | feed data now => exact h.feed hA hX data now
  | mint s now =>
    simp only [TBridge.step]
    split
    · next hc =>
      obtain ⟨h1, h2, h3⟩ := hm s now rfl
      exact (h.mint s hc.1 hc.2.1 (by simpa using hc.2.2) h1 h2 h3).replay hA hX now
    · exact h
  | replay now => exact h.replay hA hX now
  | pump now => exact h.pumpOut now
  | transmit => exact h.transmit
  | commit cmp e now =>
    simp only [TBridge.step, drainPayloadOnly] at hR ⊢
    split
    · next hx => rw [if_pos hx] at hR; exact h.drain _ _ _ _ _ hR
    · exact h
  | reap cmp e now =>
    simp only [TBridge.step] at hR ⊢
    split
    · next hx =>
      rw [if_pos hx] at hR
      unfold drainThenReap at hR ⊢
      split
      · exact h
      · next s hs =>
        rw [hs] at hR
        exact h.drain _ _ _ _ _ (fun hi e ev t e' p hc => hR hi e ev t e' p (List.mem_append_left _ hc))
    · exact h
  | setCompression cmp =>
    exact ⟨h.wire.same rfl rfl rfl rfl rfl, h.life.imp fun p0 hx => hx.imp fun n hx => ⟨hx.cnt, fun hf s hs => by
      have ha := hx.live hf s hs
      exact ⟨ha.life, ha.any, ha.fin, ha.recv, ha.send⟩⟩, h.opened, h.quiet, ⟨h.ready.kept, h.ready.limit⟩, h.tidy⟩
  | setEncryption ring => exact h
  | fail r => exact h.fail r

/-- Every sequence of calls. -/
theorem TWire.run (hX : ∀ l, label = some l → l.length ≤ 253) (ops : List (TOp I A)) : ∀ {b : TBridge I A R},
    TWire T M In label b → (In → ∀ seq m, encodeTyped env.CI env.CA (.ack seq []) = .ok m → M m) →
    (In → ∀ (e : Ep I A) ev t e' p, .streamEvent (.payload ev) t ∈ b.calls cfg env T ops →
      e.handleStreamEvent cfg env (.payload ev) t = (e', some (.sendResponse p)) → M (Ep.encodeBytes env (.pushPull p))) →
    (∀ s now, .mint s now ∈ ops → Life s.phase 0 s ∧ s.endpointEvents = [] ∧ Bridge.Due T.B M In false s) →
    TWire T M In label (b.run cfg env T ops) := by
  induction ops with
  | nil => intro b h _ _ _; exact h
  | cons op ops ih =>
    intro b h hA hR hm
    refine ih (h.step (cfg := cfg) (env := env) hX op hA
      (fun hi e ev t e' p hc => hR hi e ev t e' p (List.mem_append_left _ hc)) (fun s now he => hm s now (by rw [he]; exact List.mem_cons_self)))
      hA (fun hi e ev t e' p hc => hR hi e ev t e' p (List.mem_append_right _ hc)) (fun s now he => hm s now (List.mem_cons_of_mem _ he))
end

theorem TWire.start {r : LabeledTls R} {d max : Nat} {cmp : CmpOptions} (hk : r.inner.Kept) (hp : LOk label r.plain)
    (ho : r.plain.outbound = r.plain.head) (ht : Tidy false r.inner) : TWire T M In label (TBridge.new r d cmp max : TBridge I A R) where
  wire := ⟨⟨hp.label, hp.pre, hp.dialer, hp.valid, hp.once⟩, fun hx => (by cases hx), fun _ _ => ho, fun _ hx => (by cases hx),
    fun _ _ hx => (by cases hx), fun _ _ => rfl⟩
  life := ⟨.done, 0, ⟨Nat.zero_le _, fun _ hx => (by cases hx)⟩, fun _ _ hx => (by cases hx)⟩
  opened := fun hx => absurd rfl hx
  quiet := fun _ _ => ⟨rfl, rfl⟩
  ready := ⟨hk.quiet rfl rfl, sized_le max⟩
  tidy := fun _ => ⟨ht.clear, ht.close, ht.done⟩

theorem TWire.newDialer (hX : ∀ l, label = some l → l.length ≤ 253) (skip : Bool) (conn : R.C) (d max : Nat) (cmp : CmpOptions) :
    TWire T M In label (TBridge.new (.newDialer label skip conn) d cmp max : TBridge I A R) := by
  have hpl : (LabeledTls.newDialer (R := R) label skip conn).plain = Labeled.newDialer label skip := by
    unfold LabeledTls.newDialer
    rw [LabeledTls.plain_flushLabel]
    · rfl
    · intro _
      right
      have h1 := prefix_le (g := .newDialer label skip) hX skip rfl
      have h2 := sized_le (64 * 1024 * 1024)
      show 0 + (LabelGate.newDialer label skip).outboundPrefix.length ≤ sizedSendLimit (64 * 1024 * 1024)
      omega
  have ht0 : Tidy false (TlsRecords.new (R := R) conn) := ⟨by simp [TlsRecords.new], by simp [TlsRecords.new], by simp [TlsRecords.new]⟩
  have hd := LOk.newDialer label skip
  refine TWire.start ?_ (by rw [hpl]; exact hd.1) (by rw [hpl]; exact hd.2) ?_
  · unfold LabeledTls.newDialer LabeledTls.flushLabel
    simp only []
    split <;> (try split)
    · exact .new conn
    · exact .new conn
    · exact (TlsRecords.Kept.new conn).write _
  · unfold LabeledTls.newDialer LabeledTls.flushLabel
    simp only []
    split <;> (try split)
    · exact ht0
    · exact ht0
    · exact ht0.write _

theorem TWire.newAcceptor (skip : Bool) (conn : R.C) (d max : Nat) (cmp : CmpOptions) :
    TWire T M In label (TBridge.new (.newAcceptor label skip conn) d cmp max : TBridge I A R) :=
  TWire.start (.new conn) (LOk.newAcceptor label skip).1 (LOk.newAcceptor label skip).2
    ⟨by simp [LabeledTls.newAcceptor, TlsRecords.new], by simp [LabeledTls.newAcceptor, TlsRecords.new],
      by simp [LabeledTls.newAcceptor, TlsRecords.new]⟩

/-- A stream the endpoint opened. -/
theorem life_opened [DecidableEq A] {cfg : Cfg I A} {e : Ep I A} {op : Ep.Op I A} {s : Stream I A}
    (h : (e.step cfg env op).2 = .stream (some s)) : Life s.phase 0 s ∧ s.endpointEvents = [] := by
  cases op <;> simp only [Ep.step] at h <;> try (cases h; done)
  case acceptStream src now =>
    unfold Ep.acceptStream at h
    split at h
    · simp at h
    · simp only [Ep.Out.stream.injEq, Option.some.injEq] at h
      subst h
      exact ⟨⟨rfl, rfl, rfl, rfl⟩, rfl⟩
  case dialSucceeded id now =>
    unfold Ep.dialSucceeded at h
    split at h
    · simp at h
    · simp only [] at h
      split at h
      · simp at h
      · split at h
        · simp at h
        · simp only [Ep.Out.stream.injEq, Option.some.injEq] at h
          subst h
          exact ⟨⟨rfl, rfl, rfl⟩, rfl⟩
  all_goals (split at h <;> cases h)

/-- What was handed over, and what is still to be, of an exchange that has not failed. -/
theorem TWire.said (h : TWire T M In label b) (hf : b.isFailed = false) :
    uttered b.records.inner.trace ++ unsent b.records.inner.trace = b.plain.records.outbound :=
  uttered_unsent _ h.ready.kept.evs (h.tidy hf).clear

/-! ### An exchange that was opened for a request -/

theorem said_dead {b : TBridge I A R} (h : b.isFailed = true) : Bridge.Said b.plain := Bridge.Said.dead (b := b.plain) h

theorem said_endOfInput (h : Bridge.Said b.plain) {s : Stream I A} (hs : b.stream = some s) (hf : b.isFailed = false) (now : Nat) :
    Bridge.Said (b.endOfInput env.CI env.CA s now).plain := by
  unfold TBridge.endOfInput
  split
  · exact said_dead (failWithRetire_isFailed _ _)
  · cases hh : s.handleData env.CI env.CA [] now with
    | mk s' o =>
      cases o with
      | some e => exact said_dead (failWithRetire_isFailed _ _)
      | none =>
        obtain ⟨e1, e2, e3, e4, e5⟩ := observeRecvFin_same ({ b with stream := some s' } : TBridge I A R)
        intro _ s2 hs2
        have hs2 : (({ b with stream := some s' } : TBridge I A R).observeRecvFin).stream = some s2 := hs2
        rw [e2] at hs2
        cases hs2
        show (({ b with stream := some s' } : TBridge I A R).observeRecvFin).sentAny = true ∨ _
        rw [e4]
        rcases h hf s hs with g | ⟨k, g⟩
        · exact .inl g
        · exact .inr ⟨k, Bridge.data_out g hh⟩

theorem said_loop (eof : Bool) (now : Nat) (fuel : Nat) : ∀ {b : TBridge I A R} (s : Stream I A) (rest : Bytes),
    Bridge.Said b.plain → b.stream = some s → b.isFailed = false →
    Bridge.Said (pumpInLoop env.CI env.CA T eof now fuel b s rest).plain := by
  induction fuel with
  | zero => intro b s rest h _ _; exact h
  | succ fuel ih =>
    intro b s rest h hs hf
    simp only [pumpInLoop]
    split
    · exact said_dead (failWithRetire_isFailed _ _)
    · cases hd : Bridge.drainUnits env.CI env.CA T none b.max now ((b.accum ++ (b.records.recv rest).1.read.2).length + 1) s
          (b.accum ++ (b.records.recv rest).1.read.2) with
      | mk s' d =>
      obtain ⟨left, res⟩ := d
      simp only []
      have hmore : ∀ pend, res = .all → Bridge.Said
          ({ b with records := (b.records.recv rest).1.read.1, stream := some s', accum := left, pendingInbound := pend } : TBridge I A R).plain := by
        intro pend hres _ s2 hs2
        subst hres
        cases hs2
        rcases h hf s hs with g | ⟨k, g⟩
        · exact .inl g
        · exact .inr ⟨k, Bridge.drain_out _ g hd⟩
      have hcl : ∀ b1 : TBridge I A R, Bridge.Said b1.plain → b1.stream = some s' → b1.isFailed = false →
          Bridge.Said (if eof || b1.records.inner.peerClosed then b1.endOfInput env.CI env.CA s' now else b1).plain := by
        intro b1 hb1 e1 e2
        split
        · exact said_endOfInput hb1 e1 e2 now
        · exact hb1
      cases res with
      | corrupt => exact said_dead (failWithRetire_isFailed _ _)
      | refused => exact said_dead (failWithRetire_isFailed _ _)
      | all =>
        simp only []
        cases hq : (b.records.recv rest).2 with
        | pending m =>
          simp only []
          split
          · exact hcl _ (hmore _ rfl) rfl hf
          · exact ih s' _ (hmore b.pendingInbound rfl) rfl hf
        | done => exact hcl _ (hmore b.pendingInbound rfl) rfl hf
        | failed => exact hcl _ (hmore b.pendingInbound rfl) rfl hf

theorem said_pumpIn (h : Bridge.Said b.plain) {s : Stream I A} (hs : b.stream = some s)
    (input : Bytes) (eof : Bool) (now : Nat) : Bridge.Said (b.pumpIn env.CI env.CA T s input eof now).plain := by
  unfold TBridge.pumpIn
  split
  · exact h
  · next ht =>
    refine said_loop eof now _ s input h hs ?_
    cases hf : b.isFailed with
    | false => rfl
    | true => exact absurd (Bridge.terminal_of_failed (b := b.plain) hf) ht

theorem said_feed (h : Bridge.Said b.plain) (data : Bytes) (now : Nat) : Bridge.Said (b.feed env.CI env.CA T data now).plain := by
  by_cases hn : b.stream = none
  · intro _ s hs
    have := (TKin.feed (env := env) (T := T) b data now).kin.nos.2 hn
    have hs : (b.feed env.CI env.CA T data now).stream = some s := hs
    rw [show (b.feed env.CI env.CA T data now).stream = none from this] at hs
    cases hs
  · unfold TBridge.feed
    split
    · exact h
    · split
      · next hs => exact absurd hs hn
      · next s hs => exact said_pumpIn (b := { b with pendingInbound := [] }) h hs _ _ now

theorem said_replay (h : Bridge.Said b.plain) (now : Nat) : Bridge.Said (b.replay env.CI env.CA T now).plain := by
  unfold TBridge.replay
  split
  · exact h
  · next s hs =>
    split
    · exact h
    · exact said_pumpIn (b := { b with pendingInbound := [] }) h hs _ _ now

theorem said_pumpOut (h : Bridge.Said b.plain) (now : Nat) : Bridge.Said (b.pumpOut T now).plain := by
  cases pumpOut_plain (T := T) b now with
  | plain _ hc => exact h.pumpOut hc
  | refused s s' chunks _ hs hf hsf hr he => rw [he]; exact .dead (Bridge.failWithRetire_failed _ _)

section
variable [DecidableEq A] {cfg : Cfg I A}

theorem said_drain (cmp : CmpOptions) (now : Nat) (fuel : Nat) : ∀ {b : TBridge I A R} (e : Ep I A) (log : List (Ep.Op I A)),
    Bridge.Said b.plain → Bridge.Said (drainEvents cfg env T cmp now fuel e b log).2.1.plain := by
  induction fuel with
  | zero => intro b e log h; exact h
  | succ fuel ih =>
    intro b e log h
    simp only [drainEvents]
    split
    · exact h
    · next s hs =>
      split
      · exact h
      · next ev rest he =>
        refine ih _ _ ?_
        unfold TBridge.commitOne
        simp only []
        split
        · intro hf s2 hs2
          cases hs2
          exact h hf s hs
        · refine said_pumpOut ?_ now
          intro hf s2 hs2
          cases hs2
          exact h hf s hs
        · exact said_dead (failWithRetire_isFailed _ _)

theorem said_run (ops : List (TOp I A)) : ∀ {b : TBridge I A R}, Bridge.Said b.plain →
    (∀ s now, .mint s now ∈ ops → ∃ k, s.phase = .outSending k) → Bridge.Said (b.run cfg env T ops).plain := by
  induction ops with
  | nil => intro b h _; exact h
  | cons op ops ih =>
    intro b h hm
    refine ih (b := (b.step cfg env T op).1) ?_ (fun s now he => hm s now (List.mem_cons_of_mem _ he))
    cases op with
    | feed data now => exact said_feed h data now
    | mint s now =>
      simp only [TBridge.step]
      split
      · refine said_replay ?_ now
        intro _ s2 hs2
        cases hs2
        exact .inr (hm s now List.mem_cons_self)
      · exact h
    | replay now => exact said_replay h now
    | pump now => exact said_pumpOut h now
    | transmit => simp only [TBridge.step]; rw [plain_transmit]; exact h
    | commit cmp e now =>
      simp only [TBridge.step, drainPayloadOnly]
      split
      · exact said_drain _ _ _ _ _ h
      · exact h
    | reap cmp e now =>
      simp only [TBridge.step]
      split
      · unfold drainThenReap
        split
        · exact h
        · exact said_drain _ _ _ _ _ h
      · exact h
    | setCompression cmp => exact h
    | setEncryption ring => exact h
    | fail r => exact said_dead (fail_isFailed _ _)
end
end TBridge
end Verif
