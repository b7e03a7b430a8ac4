import Verif.Proof.TlsAuth
/-
The exchange over TLS: every call of the coordinator keeps what is known of it.
-/
namespace Verif
open Spec

namespace TBridge
variable {I A : Type} {R : Rustls} [DecidableEq I] {env : Env I A} {X : XCfg} {T : TEnv}
variable {opened : Stream I A → Prop} {max : Nat} {W : Bytes} {E : Bool} {b : TBridge I A R}

theorem fail_passed (b : TBridge I A R) (r : LinkFail) : (b.fail r).records.passed = b.records.passed := by
  unfold TBridge.fail; split <;> rfl

theorem failWithRetire_passed (b : TBridge I A R) (r : LinkFail) : (b.failWithRetire r).records.passed = b.records.passed := by
  unfold TBridge.failWithRetire
  rw [fail_passed]
  unfold TBridge.retire
  simp only [LabeledTls.discard]
  split <;> rfl

theorem closeSend_passed (b : TBridge I A R) (s : Stream I A) : (b.closeSend s).records.passed = b.records.passed := by
  unfold TBridge.closeSend
  split
  · exact failWithRetire_passed _ _
  · split
    · rw [observeSendFin_records]; rfl
    · rfl

theorem admit_passed (r : LabeledTls R) (u : Bytes × Bytes) : (admit r u).1.passed = r.passed := by
  unfold admit; simp only []; split <;> rfl

theorem pumpOut_passed (b : TBridge I A R) (now : Nat) : (b.pumpOut T now).records.passed = b.records.passed := by
  unfold TBridge.pumpOut
  split
  · exact fail_passed _ _
  · split
    · rfl
    · split
      · exact failWithRetire_passed _ _
      · split
        · exact failWithRetire_passed _ _
        · split
          · exact closeSend_passed _ _
          · simp only []
            split
            · rw [closeSend_passed]; exact admit_passed _ _
            · rw [failWithRetire_passed]; exact admit_passed _ _

/-- The outbound pump. -/
theorem Held.pumpOut (h : Held env X T opened max W E b) (hv : b.stream ≠ none → b.records.gate.isValidating = false)
    (now : Nat) : Held env X T opened max W E (b.pumpOut T now) := by
  have hp := pumpOut_passed (T := T) b now
  cases pumpOut_plain (T := T) b now with
  | plain _ hc =>
    refine ⟨by rw [hp]; exact h.pre, fun hn => ?_, h.inv.pumpOut hv hc⟩
    rw [hp]
    exact h.cur (fun hl => hn (hc.late_ hl))
  | refused s s' chunks _ hs hf hsf hr he =>
    have hlate : (b.pumpOut T now).plain.Late := by
      rw [he]; exact Bridge.late_of_failed (Bridge.failWithRetire_failed _ _)
    refine ⟨by rw [hp]; exact h.pre, fun hn => absurd hlate hn, ?_⟩
    rw [he]
    by_cases hl : b.plain.Late
    · refine h.inv.lateStep hl (Bridge.late_of_failed (Bridge.failWithRetire_failed _ _)) (fun ev hev => ?_) (fun hc => ?_) ?_ (.inl rfl) id
      · have h1 := Bridge.evs_failWithRetire _ _ ev hev
        have h2 := Bridge.poll_length s now
        rw [hr] at h2
        have hb : b.plain.evs = s.endpointEvents := by simp [Bridge.evs, plain, hs]
        rw [hb]
        have h3 : ev ∈ s'.endpointEvents := h1
        rcases h2 with h2 | h2
        · rw [← h2]; exact h3
        · rw [h2] at h3; cases h3
      · have := Bridge.failWithRetire_failed ({ b.plain with stream := some s', sentAny := true } : Bridge I A) .transport
        simp [Bridge.isFailed, hc] at this
      · rw [Bridge.failWithRetire_eof]; exact h.inv.eof
    · refine .dead (Bridge.failWithRetire_failed _ _) (Bridge.evs_failWithRetire_open _ hl) ?_
      rw [Bridge.failWithRetire_eof]; exact h.inv.eof

/-- The inbound pump. -/
theorem Held.pumpIn (hX : ∀ l, X.label = some l → l.length ≤ 253) (h : Held env X T opened max W E b) (hr : Ready b)
    {s : Stream I A} (hs : b.stream = some s) (hh : b.phase ≠ .handshaking) (input : Bytes) (eof : Bool) (now : Nat)
    (heof : eof = true → E = true)
    (hc : (b.pumpIn env.CI env.CA T s input eof now).records.inner.peerClosed = true → E = true) :
    ∃ W', Held env X T opened max W' E (b.pumpIn env.CI env.CA T s input eof now) := by
  unfold TBridge.pumpIn at hc ⊢
  split
  · exact ⟨W, h⟩
  · next ht =>
    rw [if_neg ht] at hc
    by_cases hl : b.plain.Late
    · have hrc : b.phase = .recvClosed := by
        rcases hl with hl | hl
        · exact hl
        · exact absurd hl ht
      obtain ⟨s1, hs1, hset⟩ := h.inv.settled hrc
      have hs1 : b.stream = some s1 := hs1
      rw [hs] at hs1
      cases hs1
      obtain ⟨h1, h2, h3, h4⟩ := loop_late (env := env) (T := T) eof now (2 * input.length + 2) b s input hrc hs hset
      refine ⟨W, h.pre.trans (TKin.pumpInLoop _ _ _ _ _ _ (by simp [hs])).passed, fun hn => absurd h1 hn, ?_⟩
      refine h.inv.lateStep hl h1 (fun ev hev => ?_) h3 (fun hp => ?_) (.inl rfl) id
      · have hb : b.plain.evs = s.endpointEvents := by simp [Bridge.evs, plain, hs]
        rw [hb]; exact h2 ev hev
      · refine h.inv.eof ?_
        show b.pendingEof = true
        rw [← h4]; exact hp
    · exact Held.loop hX eof now heof _ s input h hr hs hh hl hc

/-- What is known of an exchange over TLS. -/
structure TInv (env : Env I A) (X : XCfg) (T : TEnv) (opened : Stream I A → Prop) (max : Nat) (F : Bool)
    (b : TBridge I A R) : Prop where
  held : ∃ W, Held env X T opened max W (F || b.records.inner.peerClosed) b
  ready : Ready b
  idle : b.stream = none → b.phase = .handshaking ∨ b.isFailed = true
  busy : b.stream ≠ none → b.phase ≠ .handshaking
  valid : b.stream ≠ none → b.records.gate.isValidating = false

variable {F F' : Bool} {b' : TBridge I A R}

theorem TInv.kin (h : TInv env X T opened max F b) (k : TKin b b')
    (hh : ∃ W, Held env X T opened max W (F' || b'.records.inner.peerClosed) b') : TInv env X T opened max F' b' where
  held := hh
  ready := h.ready.kin k
  idle := fun hn => by
    have hn0 : b.stream = none := k.kin.nos.1 hn
    rcases k.kin.idle hn0 with h1 | h1
    · rcases h.idle hn0 with h2 | h2
      · left; exact Eq.trans h1 h2
      · right; exact k.kin.failed h2
    · right; exact h1
  busy := fun hn hp => h.busy (fun hc => hn (k.kin.nos.2 hc)) (k.kin.hand hp)
  valid := fun hn => k.kin.lab (h.valid (fun hc => hn (k.kin.nos.2 hc)))

theorem TInv.not_late (h : TInv env X T opened max F b) (hs : b.stream = none) (ht : b.isTerminal = false) :
    ¬ b.plain.Late := by
  have hp : b.phase = .handshaking := by
    rcases h.idle hs with h1 | h1
    · exact h1
    · have := Bridge.terminal_of_failed (b := b.plain) h1
      rw [plain_terminal, ht] at this; cases this
  rintro (hc | hc)
  · have hc : b.phase = .recvClosed := hc
    rw [hp] at hc; cases hc
  · rw [plain_terminal, ht] at hc; cases hc

theorem or_closed (k : TKin b b') : (F || b.records.inner.peerClosed) = true → (F || b'.records.inner.peerClosed) = true := by
  intro hx
  simp only [Bool.or_eq_true] at hx ⊢
  rcases hx with hx | hx
  · exact .inl hx
  · exact .inr (k.via.closed hx)

theorem Held.keep (k : TKin b b') (h : Held env X T opened max W (F || b.records.inner.peerClosed) b')
    : Held env X T opened max W (F || b'.records.inner.peerClosed) b' := h.weaken (or_closed k)

theorem TInv.feed (hX : ∀ l, X.label = some l → l.length ≤ 253) (h : TInv env X T opened max F b) (data : Bytes) (now : Nat) :
    TInv env X T opened max (F || decide (data = [])) (b.feed env.CI env.CA T data now) := by
  have k : TKin b (b.feed env.CI env.CA T data now) := .feed b data now
  refine h.kin k ?_
  obtain ⟨W, hW⟩ := h.held
  have hmono : (F || b.records.inner.peerClosed) = true →
      ((F || decide (data = [])) || (b.feed env.CI env.CA T data now).records.inner.peerClosed) = true := by
    intro hx
    have := or_closed (F := F) k hx
    simp only [Bool.or_eq_true] at this ⊢
    rcases this with h | h
    · exact .inl (.inl h)
    · exact .inr h
  have hW' := hW.weaken hmono
  have hdat : data = [] → ((F || decide (data = [])) || (b.feed env.CI env.CA T data now).records.inner.peerClosed) = true := by
    intro hd; simp [hd]
  have hclo : (b.feed env.CI env.CA T data now).records.inner.peerClosed = true →
      ((F || decide (data = [])) || (b.feed env.CI env.CA T data now).records.inner.peerClosed) = true := by
    intro hd; simp [hd]
  generalize ((F || decide (data = [])) || (b.feed env.CI env.CA T data now).records.inner.peerClosed) = E at *
  unfold TBridge.feed
  split
  · exact ⟨W, hW'⟩
  · next ht =>
    have ht' : b.isTerminal = false := by simpa using ht
    split
    · next hs =>
      have hl := h.not_late hs ht'
      split
      · next hd =>
        split
        · exact ⟨W, hW'.fail _⟩
        · refine Held.intake (b := { b with pendingEof := true }) hX 1 [] ?_ ⟨h.ready.kept, h.ready.limit⟩ hs hl (W := W)
          exact ⟨hW'.pre, hW'.cur, fun _ => hdat hd, hW'.inv.ring_, hW'.inv.max_,
            fun hl => (hW'.inv.open_ hl).congr rfl rfl rfl rfl rfl, hW'.inv.settled, fun hl' => absurd hl' hl⟩
      · exact Held.intake hX _ _ hW' h.ready hs hl
    · next s hs =>
      have e : b.feed env.CI env.CA T data now =
          ({ b with pendingInbound := [] } : TBridge I A R).pumpIn env.CI env.CA T s (b.pendingInbound ++ data) (decide (data = [])) now := by
        unfold TBridge.feed
        rw [if_neg ht]
        split
        · next hn => rw [hs] at hn; cases hn
        · next s' hs' => rw [hs] at hs'; cases hs'; rfl
      rw [e] at hclo
      exact Held.pumpIn (b := { b with pendingInbound := [] }) hX ⟨hW'.pre, hW'.cur, hW'.inv⟩
        ⟨h.ready.kept, h.ready.limit⟩ hs (h.busy (by simp [hs])) _ _ now (by simpa using hdat) hclo

theorem TInv.replay (hX : ∀ l, X.label = some l → l.length ≤ 253) (h : TInv env X T opened max F b) (now : Nat) :
    TInv env X T opened max F (b.replay env.CI env.CA T now) := by
  have k : TKin b (b.replay env.CI env.CA T now) := .replay b now
  refine h.kin k ?_
  obtain ⟨W, hW⟩ := h.held
  have hW' := hW.weaken (or_closed k)
  have hclo : (b.replay env.CI env.CA T now).records.inner.peerClosed = true →
      (F || (b.replay env.CI env.CA T now).records.inner.peerClosed) = true := by
    intro hd; simp [hd]
  generalize (F || (b.replay env.CI env.CA T now).records.inner.peerClosed) = E at *
  unfold TBridge.replay
  split
  · exact ⟨W, hW'⟩
  · next s hs =>
    split
    · exact ⟨W, hW'⟩
    · next ht =>
      have e : b.replay env.CI env.CA T now =
          ({ b with pendingInbound := [] } : TBridge I A R).pumpIn env.CI env.CA T s b.pendingInbound b.pendingEof now := by
        unfold TBridge.replay
        split
        · next hn => rw [hs] at hn; cases hn
        · next s' hs' => rw [hs] at hs'; cases hs'; rw [if_neg ht]
      rw [e] at hclo
      exact Held.pumpIn (b := { b with pendingInbound := [] }) hX ⟨hW'.pre, hW'.cur, hW'.inv⟩
        ⟨h.ready.kept, h.ready.limit⟩ hs (h.busy (by simp [hs])) _ _ now hW'.inv.eof hclo

theorem TInv.pump (h : TInv env X T opened max F b) (now : Nat) : TInv env X T opened max F (b.pumpOut T now) := by
  have k : TKin b (b.pumpOut T now) := .pumpOut b now
  refine h.kin k ?_
  obtain ⟨W, hW⟩ := h.held
  exact ⟨W, (hW.pumpOut h.valid now).weaken (or_closed k)⟩

theorem TInv.fail (h : TInv env X T opened max F b) (r : LinkFail) : TInv env X T opened max F (b.fail r) := by
  have k : TKin b (b.fail r) := .fail b r
  refine h.kin k ?_
  obtain ⟨W, hW⟩ := h.held
  exact ⟨W, (hW.fail r).weaken (or_closed k)⟩

theorem plain_transmit (b : TBridge I A R) : b.transmit.1.plain = b.plain := by
  simp only [TBridge.transmit, plain, LabeledTls.plain_transmit]

theorem TInv.transmit (h : TInv env X T opened max F b) : TInv env X T opened max F b.transmit.1 := by
  have k : TKin b b.transmit.1 := TKin.set rfl Iff.rfl rfl (.transmit _) id
  refine h.kin k ?_
  obtain ⟨W, hW⟩ := h.held
  refine ⟨W, Held.weaken ?_ (or_closed k)⟩
  exact ⟨hW.pre, by rw [plain_transmit]; exact hW.cur, by rw [plain_transmit]; exact hW.inv⟩

theorem TInv.setCompression (h : TInv env X T opened max F b) (cmp : CmpOptions) :
    TInv env X T opened max F (b.setCompression cmp) := by
  have k : TKin b (b.setCompression cmp) := TKin.set rfl Iff.rfl rfl (.refl _) id
  refine h.kin k ?_
  obtain ⟨W, hW⟩ := h.held
  exact ⟨W, hW.pre, hW.cur, hW.inv.setCompression cmp⟩

theorem TInv.mint (hX : ∀ l, X.label = some l → l.length ≤ 253) (h : TInv env X T opened max F b) (s : Stream I A) (now : Nat)
    (hp : b.phase = .handshaking) (hv : b.records.isHandshaking = false) (hs : b.stream = none) (ho : opened s)
    (hf : Fed env.CI env.CA s [] s) : TInv env X T opened max F ((b.promote s).replay env.CI env.CA T now) := by
  refine TInv.replay hX ?_ now
  have hl := h.not_late hs (by simp [TBridge.isTerminal, hp])
  have hnl : ¬ (b.promote s).plain.Late := by
    rintro (h | h) <;> simp [TBridge.promote, plain, Bridge.isTerminal] at h
  refine ⟨?_, ⟨h.ready.kept, h.ready.limit⟩, by simp [TBridge.promote], by simp [TBridge.promote], fun _ => ?_⟩
  · obtain ⟨W, hW⟩ := h.held
    refine ⟨W, hW.pre, fun _ => hW.cur hl, ?_⟩
    exact hW.inv.promote hs hl ho hf
  · unfold LabeledTls.isHandshaking at hv
    simp only [Bool.or_eq_false_iff] at hv
    exact hv.1

section
variable [DecidableEq A] {cfg : Cfg I A}

theorem Held.commit (h : Held env X T opened max W E b) (hl : b.plain.Late)
    (hv : b.stream ≠ none → b.records.gate.isValidating = false) (cmp : CmpOptions) (now : Nat) (e : Ep I A)
    {s : Stream I A} {ev : PayloadEvent I A} {rest : List (PayloadEvent I A)} (hs : b.stream = some s)
    (he : s.endpointEvents = ev :: rest) :
    Held env X T opened max W E (commitOne cfg env T cmp now e b s ev rest).2 ∧
    (commitOne cfg env T cmp now e b s ev rest).2.plain.Late ∧ TKin b (commitOne cfg env T cmp now e b s ev rest).2 := by
  have hset : b.phase = .recvClosed → Settled s := by
    intro hp
    obtain ⟨s1, h1, h2⟩ := h.inv.settled hp
    have h1 : b.stream = some s1 := h1
    rw [hs] at h1; cases h1; exact h2
  have hev : b.plain.evs = ev :: rest := by simp [Bridge.evs, plain, hs, he]
  have h0 : ∀ (b1 : TBridge I A R) (s1 : Stream I A), b1.records = b.records → b1.phase = b.phase → b1.stream = some s1 →
      s1.endpointEvents = rest → (Settled s → Settled s1) → b1.pendingEof = b.pendingEof →
      Held env X T opened max W E b1 ∧ b1.plain.Late := by
    intro b1 s1 e1 e2 e3 e4 e5 e6
    have hl1 : b1.plain.Late := (Bridge.late_congr (a := b1.plain) (b := b.plain) e2).2 hl
    refine ⟨⟨by rw [e1]; exact h.pre, fun hn => absurd hl1 hn, ?_⟩, hl1⟩
    refine h.inv.lateStep hl hl1 (fun ev' hev' => ?_) (fun hp => ⟨s1, e3, e5 (hset (by rw [← e2]; exact hp))⟩) (fun hp => ?_) (.inl rfl) id
    · rw [hev]
      have : b1.plain.evs = rest := by simp [Bridge.evs, plain, e3, e4]
      rw [this] at hev'
      exact List.mem_cons_of_mem _ hev'
    · refine h.inv.eof ?_
      show b.pendingEof = true
      rw [← e6]; exact hp
  unfold TBridge.commitOne
  simp only []
  split
  · obtain ⟨g1, g2⟩ := h0 ({ b with stream := some { s with endpointEvents := rest } } : TBridge I A R) _ rfl rfl rfl rfl id rfl
    exact ⟨g1, g2, TKin.set rfl (by simp [hs]) rfl (.refl _) id⟩
  · next p _ =>
    obtain ⟨g1, g2⟩ := h0 ({ b with
        stream := some (({ s with endpointEvents := rest } : Stream I A).loadResponse
          (compressPayload T.B cmp (Ep.encodeBytes env (.pushPull p))) (now + cfg.streamTimeout)),
        precompressed := true, deadline := now + cfg.streamTimeout } : TBridge I A R) _ rfl rfl rfl rfl id rfl
    have g3 := g1.pumpOut (fun _ => hv (by simp [hs])) now
    refine ⟨g3, ?_, ?_⟩
    · cases pumpOut_plain (T := T) ({ b with
          stream := some (({ s with endpointEvents := rest } : Stream I A).loadResponse
            (compressPayload T.B cmp (Ep.encodeBytes env (.pushPull p))) (now + cfg.streamTimeout)),
          precompressed := true, deadline := now + cfg.streamTimeout } : TBridge I A R) now with
      | plain _ hc => exact hc.late_ g2
      | refused _ _ _ _ _ _ _ _ hx => rw [hx]; exact Bridge.late_of_failed (Bridge.failWithRetire_failed _ _)
    · refine TKin.trans ?_ (.pumpOut _ now)
      exact TKin.set rfl (by simp [hs]) rfl (.refl _) id
  · obtain ⟨g1, g2⟩ := h0 ({ b with stream := some { s with endpointEvents := rest } } : TBridge I A R) _ rfl rfl rfl rfl id rfl
    have hf := failWithRetire_isFailed ({ b with stream := some { s with endpointEvents := rest } } : TBridge I A R) .admissionClosed
    have hlf := Bridge.late_of_failed (b := (({ b with stream := some { s with endpointEvents := rest } } : TBridge I A R).failWithRetire .admissionClosed).plain) hf
    refine ⟨⟨by rw [failWithRetire_passed]; exact h.pre, fun hn => absurd hlf hn, ?_⟩, hlf, ?_⟩
    · refine g1.inv.lateStep g2 hlf (fun ev' hev' => ?_) (fun hp => ?_) (fun hp => ?_) (.inl rfl) id
      · rw [plain_failWithRetire] at hev'
        exact Bridge.evs_failWithRetire _ _ ev' hev'
      · have hp : (({ b with stream := some { s with endpointEvents := rest } } : TBridge I A R).failWithRetire .admissionClosed).phase = .recvClosed := hp
        simp [TBridge.isFailed, hp] at hf
      · rw [plain_failWithRetire, Bridge.failWithRetire_eof] at hp
        exact g1.inv.eof hp
    · exact TKin.trans (b := { b with stream := some { s with endpointEvents := rest } })
        (TKin.set rfl (by simp [hs]) rfl (.refl _) id) (.failWithRetire _ _)

/-- The loop that commits payloads. -/
theorem Held.drain (cmp : CmpOptions) (now : Nat) (fuel : Nat) : ∀ {b : TBridge I A R} (e : Ep I A) (log : List (Ep.Op I A)),
    Held env X T opened max W E b → b.plain.Late → (b.stream ≠ none → b.records.gate.isValidating = false) →
    Held env X T opened max W E (drainEvents cfg env T cmp now fuel e b log).2.1 ∧
    TKin b (drainEvents cfg env T cmp now fuel e b log).2.1 ∧
    ∀ ev t, .streamEvent (.payload ev) t ∈ (drainEvents cfg env T cmp now fuel e b log).2.2 →
      .streamEvent (.payload ev) t ∈ log ∨ Bridge.Auth env X T opened none max W E ev := by
  induction fuel with
  | zero => intro b e log h _ _; exact ⟨h, .refl b, fun ev t hm => .inl hm⟩
  | succ fuel ih =>
    intro b e log h hl hv
    simp only [drainEvents]
    split
    · exact ⟨h, .refl b, fun ev t hm => .inl hm⟩
    · next s hs =>
      split
      · exact ⟨h, .refl b, fun ev t hm => .inl hm⟩
      · next ev rest he =>
        obtain ⟨g1, g2, g3⟩ := h.commit (cfg := cfg) hl hv cmp now e hs he
        have hv' : (commitOne cfg env T cmp now e b s ev rest).2.stream ≠ none →
            (commitOne cfg env T cmp now e b s ev rest).2.records.gate.isValidating = false :=
          fun hn => g3.kin.lab (hv (fun hc => hn (g3.kin.nos.2 hc)))
        obtain ⟨i1, i2, i3⟩ := ih (commitOne cfg env T cmp now e b s ev rest).1 (log ++ [.streamEvent (.payload ev) now]) g1 g2 hv'
        refine ⟨i1, g3.trans i2, fun ev' t hm => ?_⟩
        rcases i3 ev' t hm with hm | hm
        · rcases List.mem_append.1 hm with hm | hm
          · exact .inl hm
          · right
            simp only [List.mem_singleton] at hm
            cases hm
            exact h.inv.auth hl ev (by simp [Bridge.evs, plain, hs, he])
        · exact .inr hm

/-- Whether a call delivers the end of the peer's stream. -/
def TOp.isEof : TOp I A → Bool
  | .feed [] _ => true
  | _ => false

/-- One call of the coordinator. -/
theorem TInv.step (hX : ∀ l, X.label = some l → l.length ≤ 253) (h : TInv env X T opened max F b) (op : TOp I A)
    (hm : ∀ s now, op = .mint s now → opened s ∧ Fed env.CI env.CA s [] s) :
    TInv env X T opened max (F || op.isEof) (b.step cfg env T op).1 ∧ b.records.passed <+: (b.step cfg env T op).1.records.passed ∧
    ∀ ev t, .streamEvent (.payload ev) t ∈ (b.step cfg env T op).2.1 →
      ∃ W, W <+: (b.step cfg env T op).1.records.passed ∧
        Bridge.Auth env X T opened none max W ((F || op.isEof) || (b.step cfg env T op).1.records.inner.peerClosed) ev := by
  have none_ : ∀ (P : PayloadEvent I A → Nat → Prop), ∀ ev t, Ep.Op.streamEvent (.payload ev) t ∈ ([] : List (Ep.Op I A)) → P ev t := by
    intro P ev t hx; cases hx
  have drained : ∀ (cmp : CmpOptions) (e : Ep I A) (now : Nat), b.plain.Late →
      TInv env X T opened max F (drainEvents cfg env T cmp now b.queued e b []).2.1 ∧
      TKin b (drainEvents cfg env T cmp now b.queued e b []).2.1 ∧
      ∀ ev t, .streamEvent (.payload ev) t ∈ (drainEvents cfg env T cmp now b.queued e b []).2.2 →
        ∃ W, W <+: (drainEvents cfg env T cmp now b.queued e b []).2.1.records.passed ∧
        Bridge.Auth env X T opened none max W (F || (drainEvents cfg env T cmp now b.queued e b []).2.1.records.inner.peerClosed) ev := by
    intro cmp e now hl
    obtain ⟨W, hW⟩ := h.held
    obtain ⟨g1, g2, g3⟩ := hW.drain (cfg := cfg) cmp now b.queued e [] hl h.valid
    refine ⟨h.kin g2 ⟨W, g1.weaken (or_closed g2)⟩, g2, fun ev t hx => ?_⟩
    rcases g3 ev t hx with hx | hx
    · cases hx
    · exact ⟨W, g1.pre, hx.mono (fun _ h => h) (or_closed g2)⟩
  cases op with
  | feed data now =>
    have e : (TOp.feed data now : TOp I A).isEof = decide (data = []) := by
      cases data <;> rfl
    rw [e]
    exact ⟨h.feed hX data now, (TKin.feed b data now).passed, none_ _⟩
  | mint s now =>
    simp only [TBridge.step, TOp.isEof, Bool.or_false]
    split
    · next hc =>
      obtain ⟨h1, h2⟩ := hm s now rfl
      have hs : b.stream = none := by simpa using hc.2.2
      exact ⟨h.mint hX s now hc.1 hc.2.1 hs h1 h2, (TKin.replay (b.promote s) now).passed, none_ _⟩
    · exact ⟨h, List.prefix_refl _, none_ _⟩
  | replay now =>
    simp only [TBridge.step, TOp.isEof, Bool.or_false]
    exact ⟨h.replay hX now, (TKin.replay b now).passed, none_ _⟩
  | pump now =>
    simp only [TBridge.step, TOp.isEof, Bool.or_false]
    exact ⟨h.pump now, (TKin.pumpOut b now).passed, none_ _⟩
  | transmit =>
    simp only [TBridge.step, TOp.isEof, Bool.or_false]
    exact ⟨h.transmit, List.prefix_refl _, none_ _⟩
  | commit cmp e now =>
    simp only [TBridge.step, TOp.isEof, Bool.or_false, drainPayloadOnly]
    split
    · next hp =>
      obtain ⟨g1, g2, g3⟩ := drained cmp e now (.inl hp)
      exact ⟨g1, g2.passed, g3⟩
    · exact ⟨h, List.prefix_refl _, none_ _⟩
  | reap cmp e now =>
    simp only [TBridge.step, TOp.isEof, Bool.or_false]
    split
    · next ht =>
      unfold drainThenReap
      split
      · exact ⟨h, List.prefix_refl _, none_ _⟩
      · obtain ⟨g1, g2, g3⟩ := drained cmp e now (.inr ht)
        refine ⟨g1, g2.passed, fun ev t hx => ?_⟩
        rcases List.mem_append.1 hx with hx | hx
        · exact g3 ev t hx
        · exfalso
          simp only [List.mem_singleton] at hx
          split at hx <;> cases hx
    · exact ⟨h, List.prefix_refl _, none_ _⟩
  | setCompression cmp =>
    simp only [TBridge.step, TOp.isEof, Bool.or_false]
    exact ⟨h.setCompression cmp, List.prefix_refl _, none_ _⟩
  | setEncryption ring =>
    simp only [TBridge.step, TOp.isEof, Bool.or_false]
    exact ⟨h, List.prefix_refl _, none_ _⟩
  | fail r =>
    simp only [TBridge.step, TOp.isEof, Bool.or_false]
    exact ⟨h.fail r, (TKin.fail b r).passed, none_ _⟩
end

section
variable [DecidableEq A] {cfg : Cfg I A}

/-- A closed peer stays closed. -/
theorem step_closed (op : TOp I A) (h : b.records.inner.peerClosed = true) :
    (b.step cfg env T op).1.records.inner.peerClosed = true := by
  have hdrain : ∀ (cmp : CmpOptions) (now fuel : Nat) (e : Ep I A) (b : TBridge I A R) (log : List (Ep.Op I A)),
      b.records.inner.peerClosed = true →
      (drainEvents cfg env T cmp now fuel e b log).2.1.records.inner.peerClosed = true := by
    intro cmp now fuel
    induction fuel with
    | zero => intro e b log h; exact h
    | succ fuel ih =>
      intro e b log h
      simp only [drainEvents]
      split
      · exact h
      · split
        · exact h
        · apply ih
          unfold TBridge.commitOne
          simp only []
          split
          · exact h
          · exact (TKin.pumpOut _ now).via.closed h
          · exact (TKin.failWithRetire _ _).via.closed h
  cases op with
  | feed data now => exact (TKin.feed b data now).via.closed h
  | mint s now =>
    simp only [TBridge.step]
    split
    · exact (TKin.replay (b.promote s) now).via.closed h
    · exact h
  | replay now => exact (TKin.replay b now).via.closed h
  | pump now => exact (TKin.pumpOut b now).via.closed h
  | transmit =>
    simp only [TBridge.step]
    exact (LabeledTls.LKin.transmit b.records).via.closed h
  | commit cmp e now =>
    simp only [TBridge.step, drainPayloadOnly]
    split
    · exact hdrain _ _ _ _ _ _ h
    · exact h
  | reap cmp e now =>
    simp only [TBridge.step]
    split
    · unfold drainThenReap
      split
      · exact h
      · exact hdrain _ _ _ _ _ _ h
    · exact h
  | setCompression cmp => exact h
  | setEncryption ring => exact h
  | fail r => exact (TKin.fail b r).via.closed h

/-- Every sequence of calls. -/
theorem TInv.run (hX : ∀ l, X.label = some l → l.length ≤ 253) (ops : List (TOp I A)) : ∀ {b : TBridge I A R} {F : Bool},
    TInv env X T opened max F b → (∀ s now, .mint s now ∈ ops → opened s ∧ Fed env.CI env.CA s [] s) →
    TInv env X T opened max (F || ops.any TOp.isEof) (b.run cfg env T ops) ∧
    b.records.passed <+: (b.run cfg env T ops).records.passed ∧
    (b.records.inner.peerClosed = true → (b.run cfg env T ops).records.inner.peerClosed = true) ∧
    ∀ ev t, .streamEvent (.payload ev) t ∈ b.calls cfg env T ops →
      ∃ W, W <+: (b.run cfg env T ops).records.passed ∧ Bridge.Auth env X T opened none max W
        ((F || ops.any TOp.isEof) || (b.run cfg env T ops).records.inner.peerClosed) ev := by
  induction ops with
  | nil => intro b F h _; exact ⟨by simpa [TBridge.run] using h, List.prefix_refl _, id, fun ev t hx => by cases hx⟩
  | cons op ops ih =>
    intro b F h hm
    obtain ⟨g1, g2, g3⟩ := h.step (cfg := cfg) hX op (fun s now he => hm s now (by rw [he]; exact List.mem_cons_self))
    obtain ⟨i1, i2, i3, i4⟩ := ih g1 (fun s now he => hm s now (List.mem_cons_of_mem _ he))
    have hb : (F || op.isEof || ops.any TOp.isEof) = (F || (op :: ops).any TOp.isEof) := by
      simp [Bool.or_assoc]
    rw [hb] at i1 i4
    refine ⟨i1, g2.trans i2, fun hp => i3 (step_closed op hp), fun ev t hx => ?_⟩
    rcases List.mem_append.1 hx with hx | hx
    · obtain ⟨W, w1, w2⟩ := g3 ev t hx
      refine ⟨W, w1.trans i2, w2.mono (fun _ h => h) fun hE => ?_⟩
      rw [Bool.or_eq_true] at hE
      rcases hE with hE | hE
      · rw [← hb, hE]; rfl
      · have := i3 hE
        show (_ || (TBridge.run cfg env T (TBridge.step cfg env T b op).fst ops).records.inner.peerClosed) = true
        rw [this, Bool.or_true]
    · exact i4 ev t hx
end

theorem sized_le (m : Nat) : 65536 ≤ sizedSendLimit m := by
  unfold sizedSendLimit
  have := Nat.le_max_right (m + m / 16 + 16 * 1024) (64 * 1024)
  exact this

/-- A new bridge. -/
theorem TInv.start {r : LabeledTls R} {d : Nat} {cmp : CmpOptions} (hp : r.passed = []) (hk : r.inner.Kept)
    (hi : Bridge.BInv env X T opened none max [] false (TBridge.new r d cmp max : TBridge I A R).plain) :
    TInv env X T opened max false (TBridge.new r d cmp max) where
  held := ⟨[], List.nil_prefix, fun _ => hp.symm, fun h => absurd (hi.eof h) (by simp), hi.ring_, hi.max_, hi.open_, hi.settled,
    fun hl ev hev => (hi.auth hl ev hev).mono (fun _ h => h) (by simp)⟩
  ready := ⟨hk.quiet rfl rfl, sized_le max⟩
  idle := fun _ => .inl rfl
  busy := fun h => absurd rfl h
  valid := fun h => absurd rfl h

theorem prefix_le {g : LabelGate} {l : Option Bytes} (hX : ∀ x, l = some x → x.length ≤ 253) (skip : Bool)
    (h : g = .newDialer l skip) : g.outboundPrefix.length ≤ 255 := by
  subst h
  unfold LabelGate.newDialer LabelGate.queuePrefix LabelGate.newAcceptor
  cases hl : effectiveLabel l with
  | none => simp
  | some x =>
    have : x.length ≤ 253 := by
      apply hX
      unfold effectiveLabel at hl
      split at hl
      · split at hl
        · cases hl
        · simp only [Option.some.injEq] at hl; rw [← hl]
      · cases hl
    simp [encodeLabelPrefix]; omega

theorem TInv.newDialer (hX : ∀ l, X.label = some l → l.length ≤ 253) (conn : R.C) (d : Nat) (cmp : CmpOptions) :
    TInv env X T opened max false (TBridge.new (.newDialer X.label X.skipLabel conn) d cmp max) := by
  have hpl : (LabeledTls.newDialer (R := R) X.label X.skipLabel conn).plain = Labeled.newDialer X.label X.skipLabel := by
    unfold LabeledTls.newDialer
    rw [LabeledTls.plain_flushLabel]
    · rfl
    · intro _
      right
      have h1 := prefix_le (g := .newDialer X.label X.skipLabel) hX X.skipLabel rfl
      have h2 := sized_le (64 * 1024 * 1024)
      show 0 + (LabelGate.newDialer X.label X.skipLabel).outboundPrefix.length ≤ sizedSendLimit (64 * 1024 * 1024)
      omega
  refine TInv.start ?_ ?_ ?_
  · unfold LabeledTls.newDialer LabeledTls.flushLabel
    simp only []
    split <;> (try split) <;> rfl
  · unfold LabeledTls.newDialer LabeledTls.flushLabel
    simp only []
    split <;> (try split)
    · exact .new conn
    · exact .new conn
    · exact (TlsRecords.Kept.new conn).write _
  · have e : (TBridge.new (.newDialer X.label X.skipLabel conn) d cmp max : TBridge I A R).plain =
        Bridge.new 0 (.newDialer X.label X.skipLabel) d cmp none max := by
      rw [← hpl]; rfl
    rw [e]
    exact Bridge.BInv.newDialer 0 d cmp

theorem TInv.newAcceptor (conn : R.C) (d : Nat) (cmp : CmpOptions) :
    TInv env X T opened max false (TBridge.new (.newAcceptor X.label X.skipLabel conn) d cmp max) :=
  TInv.start rfl (.new conn) (Bridge.BInv.newAcceptor 0 d cmp)

/-! The loops come to an end by themselves. -/

theorem intake_zero {s : TlsRecords R} {d : Bytes} (h : (s.intake d).2 = .pending 0) : (R.readTls s.conn d).2 = none := by
  unfold TlsRecords.intake at h
  rw [TlsRecords.intakeLoop] at h
  split at h
  · unfold TlsRecords.finishIntake at h
    split at h
    · cases h
    · split at h <;> cases h
  · split at h
    · next hx => rw [hx]
    · unfold TlsRecords.finishIntake at h
      split at h
      · cases h
      · split at h <;> cases h
    · next n hx =>
      exfalso
      simp only [] at h
      split at h
      · cases h
      · have key : ∀ (fuel : Nat) (s : TlsRecords R) (rest : Bytes) (k : Nat), 0 < k →
            (TlsRecords.intakeLoop fuel s rest k true).2 ≠ .pending 0 := by
          intro fuel
          induction fuel with
          | zero => intro s rest k hk; simp [TlsRecords.intakeLoop]; omega
          | succ fuel ih =>
            intro s rest k hk
            rw [TlsRecords.intakeLoop]
            split
            · simp [TlsRecords.finishIntake]
            · split
              · simp; omega
              · simp [TlsRecords.finishIntake]
              · simp only []
                split
                · simp
                · exact ih _ _ _ (by omega)
        exact key _ _ _ _ (by omega) h

theorem recv_intake {s : LabeledTls R} {d : Bytes} {n : Nat} (h : (s.recv d).2 = .pending n) : (s.inner.intake d).2 = .pending n := by
  unfold LabeledTls.recv at h
  simp only [] at h
  split at h
  · cases h
  · split at h
    · split at h
      · cases h
      · exact h
    · exact h

theorem recv_le {s : LabeledTls R} {d : Bytes} {n : Nat} (h : (s.recv d).2 = .pending n) : n ≤ d.length := by
  obtain ⟨_, _, _, t, _, _, h6⟩ := s.inner.intake_spec d
  rw [recv_intake h] at h6
  exact h6.1

/-- More fuel changes nothing: every round but the last takes at least one byte. -/
theorem intakeHandshaking_fuel (fuel : Nat) : ∀ (b : TBridge I A R) (rest : Bytes), rest.length < fuel →
    b.intakeHandshaking (fuel + 1) rest = b.intakeHandshaking fuel rest := by
  induction fuel with
  | zero => intro b rest h; omega
  | succ fuel ih =>
    intro b rest hf
    rw [intakeHandshaking, intakeHandshaking]
    simp only []
    split
    · rfl
    · rfl
    · next n hn =>
      have := recv_le hn
      split
      · rfl
      · split
        · rfl
        · apply ih
          rw [List.length_drop]
          omega

/-- A rustls that takes ciphertext once its plaintext has been fetched. -/
def Prompt (R : Rustls) : Prop := ∀ c bs, (R.readTls (R.drain c).1 bs).2 ≠ none

/-- More fuel changes nothing: every round but the first and the last takes at least one byte. -/
theorem pumpInLoop_fuel [DecidableEq I] (CI : DataCodec I) (CA : DataCodec A) (T : TEnv) (hP : Prompt R) (eof : Bool) (now : Nat)
    (fuel : Nat) : ∀ (b : TBridge I A R) (s : Stream I A) (rest : Bytes),
    (rest.length + 1 < fuel ∨ (rest.length < fuel ∧ ∃ c, b.records.inner.conn = (R.drain c).1)) →
    b.pumpInLoop CI CA T eof now (fuel + 1) s rest = b.pumpInLoop CI CA T eof now fuel s rest := by
  induction fuel with
  | zero => intro b s rest h; omega
  | succ fuel ih =>
    intro b s rest hf
    rw [pumpInLoop, pumpInLoop]
    simp only []
    split
    · rfl
    · split
      · rfl
      · rfl
      · split
        · next n hn =>
          have hle := recv_le hn
          split
          · rfl
          · next hne =>
            apply ih
            have hdr : ∃ c, ((b.records.recv rest).1.read).1.inner.conn = (R.drain c).1 := ⟨_, rfl⟩
            right
            refine ⟨?_, hdr⟩
            rw [List.length_drop]
            rcases hf with hf | ⟨hf, c, hc⟩
            · omega
            · have hn0 : n ≠ 0 := by
                intro h0
                subst h0
                have := intake_zero (recv_intake hn)
                rw [hc] at this
                exact hP _ _ this
              omega
        · rfl
end TBridge
end Verif
