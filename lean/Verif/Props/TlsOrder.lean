import Verif.Proof.TlsOrder
import Verif.Props.TlsBridge
/-
The way of ciphertext into an exchange over TLS.

`delivered ops` is the ciphertext the coordinator was given for the exchange in the history `ops`; `disposed` of the
record of calls is the ciphertext rustls was offered and took or wanted nothing of, in the order in which it was offered.
The coordinator installs a stream, or drops the exchange, in the very call in which the handshake is settled
(`run_tick`, streams/mod.rs:2512-2539), so ciphertext never arrives in between; that is the hypothesis `hserved`.
-/
namespace Verif.Props
open Verif Spec
variable {I A : Type} {R : Rustls} [DecidableEq I] [DecidableEq A] {cfg : Cfg I A} {env : Env I A} {X : XCfg} {T : TEnv}

/-- A new exchange has received nothing. -/
theorem tls_flow (hR : Receives R) {max : Nat} {b : TBridge I A R} (h : NewExchange X max b)
    (hh : R.handshaking b.records.inner.conn = true) : TBridge.Flow [] b := by
  have hg : b.got = [] ∧ b.pendingInbound = [] := by
    obtain ⟨conn, d, cmp, rfl | rfl⟩ := h
    · exact ⟨(LabeledTls.flushLabel_calm (R := R) { gate := .newDialer X.label X.skipLabel, inner := .new conn }).2.1, rfl⟩
    · exact ⟨rfl, rfl⟩
  refine ⟨by rw [hg.1]; exact List.prefix_refl _, fun _ => by rw [hg.1, hg.2]; rfl, fun _ => .inl (hR.hs _ hh), fun _ hn => absurd hg.2 hn⟩

/-- C111. The ciphertext that reaches rustls is a beginning of the ciphertext that was delivered: nothing is skipped,
repeated or reordered, however it is cut into deliveries and whatever happens in between. -/
theorem C111_order (hR : Receives R) {max : Nat} {b0 : TBridge I A R} (h0 : NewExchange X max b0)
    (hh : R.handshaking b0.records.inner.conn = true) (ops : List (TBridge.TOp I A))
    (hserved : ∀ pre data now post, ops = pre ++ .feed data now :: post → data ≠ [] →
      (b0.run cfg env T pre).stream = none → (b0.run cfg env T pre).isTerminal = false →
      (b0.run cfg env T pre).isHandshaking = true) :
    disposed (b0.run cfg env T ops).records.inner.trace <+: delivered ops := by
  have := ((tls_flow hR h0 hh).run (cfg := cfg) (env := env) (T := T) hR ops hserved).pre
  exact this

/-- C111. As long as the exchange goes on nothing is lost: what has not reached rustls is retained, and once there is a
stream to receive it nothing is retained at all. -/
theorem C111_complete (hR : Receives R) {max : Nat} {b0 : TBridge I A R} (h0 : NewExchange X max b0)
    (hh : R.handshaking b0.records.inner.conn = true) (ops : List (TBridge.TOp I A))
    (hserved : ∀ pre data now post, ops = pre ++ .feed data now :: post → data ≠ [] →
      (b0.run cfg env T pre).stream = none → (b0.run cfg env T pre).isTerminal = false →
      (b0.run cfg env T pre).isHandshaking = true)
    (hlive : (b0.run cfg env T ops).isTerminal = false) :
    disposed (b0.run cfg env T ops).records.inner.trace ++ (b0.run cfg env T ops).pendingInbound = delivered ops ∧
      ((b0.run cfg env T ops).stream ≠ none → (b0.run cfg env T ops).pendingInbound = []) := by
  have h := (tls_flow hR h0 hh).run (cfg := cfg) (env := env) (T := T) hR ops hserved
  refine ⟨h.all hlive, fun hs => ?_⟩
  cases hp : (b0.run cfg env T ops).pendingInbound with
  | nil => rfl
  | cons x l => exact absurd (h.held hlive (by rw [hp]; simp)).1 hs

theorem toy16_takes (c : ToyConn) : Takes toy16 c ↔ ¬ (c.hs = false ∧ c.plain.length ≥ 16) := by
  unfold Takes
  constructor
  · intro h hc
    exact h [] (by simp only [toy16]; rw [if_pos hc])
  · intro h bs
    simp only [toy16]
    rw [if_neg h]
    simp

/-- The toy rustls refuses ciphertext only for lack of room for plaintext. -/
theorem toy16_receives : Receives toy16 where
  hs c h := (toy16_takes c).2 (fun hc => by
    have h : c.hs = true := h
    rw [hc.1] at h; cases h)
  drained c := (toy16_takes _).2 (fun hc => by
    have := hc.2
    simp [toy16] at this)
  full c bs h := by
    simp only [toy16] at h ⊢
    split at h
    · next hc =>
      rw [if_pos hc]
      intro h0
      have := hc.2
      rw [h0] at this
      simp at this
    · cases h
  write c bs h := (toy16_takes _).2 ((toy16_takes c).1 h)
  writeTls c h := (toy16_takes _).2 ((toy16_takes c).1 h)
  close c h := (toy16_takes _).2 ((toy16_takes c).1 h)
  over_read c bs h := by
    simp only [toy16] at h ⊢
    split <;> exact h
  over_process c h := by
    simp only [toy16] at h ⊢
    split
    · exact h
    · split
      · next hx => rw [h] at hx; cases hx
      · split <;> exact h
  over_drain c h := h
  over_write c bs h := h
  over_writeTls c h := h
  over_close c h := h

/-- A check of the hypothesis on one delivery. -/
def timelyB (b : TBridge I A R) : TBridge.TOp I A → Bool
  | .feed data _ => data.isEmpty || b.stream.isSome || b.isTerminal || b.isHandshaking
  | _ => true

/-- A check of the hypothesis on deliveries. -/
def servedB (cfg : Cfg I A) (env : Env I A) (T : TEnv) : TBridge I A R → List (TBridge.TOp I A) → Bool
  | _, [] => true
  | b, op :: ops => timelyB b op && servedB cfg env T (b.step cfg env T op).1 ops

theorem servedB_sound : ∀ {ops : List (TBridge.TOp I A)} {b : TBridge I A R}, servedB cfg env T b ops = true →
    ∀ pre data now post, ops = pre ++ .feed data now :: post → data ≠ [] → (b.run cfg env T pre).stream = none →
      (b.run cfg env T pre).isTerminal = false → (b.run cfg env T pre).isHandshaking = true := by
  intro ops
  induction ops with
  | nil => intro b _ pre data now post h; simp at h
  | cons op ops ih =>
    intro b h pre data now post he hd hs ht
    rw [servedB, Bool.and_eq_true] at h
    cases pre with
    | nil =>
      simp only [List.nil_append, List.cons.injEq] at he
      obtain ⟨rfl, rfl⟩ := he
      have h1 := h.1
      have hs : b.stream = none := hs
      have ht : b.isTerminal = false := ht
      simp only [timelyB, hs, ht, Option.isSome_none, Bool.or_false, Bool.or_eq_true, List.isEmpty_iff] at h1
      exact h1.resolve_left hd
    | cons o pre =>
      simp only [List.cons_append, List.cons.injEq] at he
      obtain ⟨rfl, rfl⟩ := he
      exact ih h.2 pre data now post rfl hd hs ht

/-- The handshake, the label and the whole request in one delivery, the stream, and a close in a second delivery. -/
def tlsAtOnce : List (TBridge.TOp Nat Nat) :=
  [.feed (22 :: tlsWire) 6] ++ (tlsStream.map (TBridge.TOp.mint · 6)).toList ++ [.feed [255] 8]

/-- The hypotheses hold of it. After the first delivery the toy rustls, which has room for sixteen bytes of plaintext,
has taken seventeen bytes, and twelve are retained; at the end everything has reached it. -/
example :
    NewExchange Ex.X0 Ex.cfg1.maxStreamFrameSize tlsB0 ∧ toy16.handshaking tlsB0.records.inner.conn = true ∧
    servedB Ex.cfg1 Ex.env Ex.T0 tlsB0 tlsAtOnce = true ∧
    (tlsB0.run Ex.cfg1 Ex.env Ex.T0 (tlsAtOnce.take 1)).pendingInbound.length = 12 ∧
    (tlsB0.run Ex.cfg1 Ex.env Ex.T0 (tlsAtOnce.take 2)).pendingInbound = [] ∧
    (tlsB0.run Ex.cfg1 Ex.env Ex.T0 tlsAtOnce).isTerminal = false ∧
    disposed (tlsB0.run Ex.cfg1 Ex.env Ex.T0 tlsAtOnce).records.inner.trace = 22 :: tlsWire ++ [255] := by
  refine ⟨⟨_, _, _, .inr rfl⟩, rfl, ?_⟩
  decide +kernel

/-- The hypothesis on deliveries is needed: ciphertext that came after the handshake was settled and before the stream
was installed would overtake what is retained. -/
theorem C111_served_witness :
    let ops : List (TBridge.TOp Nat Nat) := [.feed (22 :: tlsWire) 6, .feed [255] 6]
    (tlsB0.run Ex.cfg1 Ex.env Ex.T0 ops).isTerminal = false ∧
    ¬ disposed (tlsB0.run Ex.cfg1 Ex.env Ex.T0 ops).records.inner.trace <+: delivered ops := by
  decide +kernel
end Verif.Props
