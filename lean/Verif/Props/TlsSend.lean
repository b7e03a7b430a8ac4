import Verif.Proof.TlsSend
import Verif.Proof.CoordDrive
import Verif.Props.TlsBridge
/-
What a reliable exchange over TLS says.

`uttered` is the plaintext rustls was given, `unsent` what was accepted for it and waits.
-/
namespace Verif.Props
open Verif Spec
variable {I A : Type} {R : Rustls} [DecidableEq I] [DecidableEq A] {cfg : Cfg I A} {env : Env I A} {X : XCfg} {T : TEnv}

/-- What an exchange may say in the course of the calls `ops`, in which it reported `calls` to the endpoint: the request
of the stream it was given, an endpoint's answer to what was reported, and the acknowledgement of a ping. -/
inductive Voiced (cfg : Cfg I A) (env : Env I A) (ops : List (TBridge.TOp I A)) (calls : List (Ep.Op I A)) : Bytes → Prop
  | request {s : Stream I A} {now : Nat} {m : Bytes} : .mint s now ∈ ops → s.outputBuf = [m] → Voiced cfg env ops calls m
  | answer {e e' : Ep I A} {ev : PayloadEvent I A} {now : Nat} {p : PushPull I A} : .streamEvent (.payload ev) now ∈ calls →
      e.handleStreamEvent cfg env (.payload ev) now = (e', some (.sendResponse p)) →
      Voiced cfg env ops calls (Ep.encodeBytes env (.pushPull p))
  | ack {seq : Nat} {m : Bytes} : encodeTyped env.CI env.CA (.ack seq []) = .ok m → Voiced cfg env ops calls m

theorem tls_said (hX : ∀ l, X.label = some l → l.length ≤ 253) {max : Nat} {b0 : TBridge I A R}
    (h0 : NewExchange X max b0) (ops : List (TBridge.TOp I A)) (hm : ∀ s now, .mint s now ∈ ops → OpenedBy cfg env s) :
    TBridge.TWire T (Voiced cfg env ops (b0.calls cfg env T ops)) True X.label (b0.run cfg env T ops) := by
  refine TBridge.TWire.run hX ops ?_ (fun _ _ _ => .ack) (fun _ _ _ _ _ _ => .answer) (fun s now hs => ?_)
  · obtain ⟨conn, d, cmp, rfl | rfl⟩ := h0
    · exact .newDialer hX _ conn d max cmp
    · exact .newAcceptor _ conn d max cmp
  · obtain ⟨e, op, ho⟩ := hm s now hs
    obtain ⟨h1, h2⟩ := TBridge.life_opened (cfg := cfg) (env := env) ho
    exact ⟨h1, h2, Coord.due_opened ho (fun _ => trivial) (fun _ => .request hs)⟩

/-- What an exchange that this node opened says is the request it was opened for. -/
theorem tls_asked (hX : ∀ l, X.label = some l → l.length ≤ 253) {max : Nat} {b0 : TBridge I A R}
    (h0 : NewExchange X max b0) (ops : List (TBridge.TOp I A))
    (hm : ∀ s now, .mint s now ∈ ops → ∃ (e : Ep I A) (id t : Nat), (e.step cfg env (.dialSucceeded id t)).2 = .stream (some s)) :
    TBridge.TWire T (fun m => ∃ s now, .mint s now ∈ ops ∧ s.outputBuf = [m]) False X.label (b0.run cfg env T ops) := by
  refine TBridge.TWire.run hX ops ?_ (fun hx => hx.elim) (fun hx => hx.elim) (fun s now hs => ?_)
  · obtain ⟨conn, d, cmp, rfl | rfl⟩ := h0
    · exact .newDialer hX _ conn d max cmp
    · exact .newAcceptor _ conn d max cmp
  · obtain ⟨e, id, t, ho⟩ := hm s now hs
    obtain ⟨h1, h2⟩ := TBridge.life_opened (cfg := cfg) (env := env) ho
    refine ⟨h1, h2, Coord.due_opened ho (fun hp => ?_) (fun m hx => ⟨s, now, hs, hx⟩)⟩
    simp only [Ep.step, Ep.Out.stream.injEq] at ho
    unfold Ep.dialSucceeded at ho
    split at ho
    · cases ho
    · simp only [] at ho
      split at ho
      · cases ho
      · split at ho
        · cases ho
        · simp only [Option.some.injEq] at ho
          subst ho
          cases hp

/-- C110. As long as an exchange over TLS has not failed, what it has given to rustls, followed by what it still has to
give, is the label header of this cluster, or nothing yet, or the header and behind it exactly one unit without a
further layer of encryption. What the unit carries, apart from compression, is the request the exchange was opened for, an
endpoint's answer to what arrived on it, or the acknowledgement of a ping. Nothing of it is ever dropped or repeated. -/
theorem C110_said (hX : ∀ l, X.label = some l → l.length ≤ 253) {max : Nat} {b0 : TBridge I A R}
    (h0 : NewExchange X max b0) (ops : List (TBridge.TOp I A)) (hm : ∀ s now, .mint s now ∈ ops → OpenedBy cfg env s)
    (hf : (b0.run cfg env T ops).isFailed = false) :
    ∃ said, uttered (b0.run cfg env T ops).records.inner.trace ++ unsent (b0.run cfg env T ops).records.inner.trace = said ∧
      (said = [] ∨ said = header X.label ∨ ∃ u, SealedUnit T.B (Voiced cfg env ops (b0.calls cfg env T ops)) none u ∧ said = header X.label ++ u) := by
  have h := tls_said (cfg := cfg) (env := env) (T := T) hX h0 ops hm
  refine ⟨_, h.said hf, ?_⟩
  cases hs : (b0.run cfg env T ops).sentAny with
  | true =>
    obtain ⟨u, h1, h2⟩ := h.wire.full hf hs
    exact .inr (.inr ⟨u, h1, h2⟩)
  | false =>
    have h1 := h.wire.fresh hf hs
    rw [List.nil_append] at h1
    rw [h1]
    cases hq : (b0.run cfg env T ops).plain.records.gate.prefixQueued with
    | true => exact .inr (.inl (h.wire.pipe.head_queued hq))
    | false => left; rw [Labeled.head, if_neg (by simp [hq])]

/-- C110. An exchange over TLS that has not failed closes its side only when it has said everything: rustls was told to
close only after it was given the header and the unit, if there is one to say, and nothing waits. -/
theorem C110_closed (hX : ∀ l, X.label = some l → l.length ≤ 253) {max : Nat} {b0 : TBridge I A R}
    (h0 : NewExchange X max b0) (ops : List (TBridge.TOp I A)) (hm : ∀ s now, .mint s now ∈ ops → OpenedBy cfg env s)
    (hf : (b0.run cfg env T ops).isFailed = false) (hc : .closed ∈ (b0.run cfg env T ops).records.inner.trace) :
    unsent (b0.run cfg env T ops).records.inner.trace = [] ∧
    (uttered (b0.run cfg env T ops).records.inner.trace = header X.label ∨
      ∃ u, SealedUnit T.B (Voiced cfg env ops (b0.calls cfg env T ops)) none u ∧ uttered (b0.run cfg env T ops).records.inner.trace = header X.label ++ u) := by
  have h := tls_said (cfg := cfg) (env := env) (T := T) hX h0 ops hm
  have ht := h.tidy hf
  have hu : unsent (b0.run cfg env T ops).records.inner.trace = [] := by
    rw [← h.ready.kept.pend]; exact ht.done hc
  have hsaid := h.said hf
  rw [hu, List.append_nil] at hsaid
  refine ⟨hu, ?_⟩
  rw [hsaid]
  cases hs : (b0.run cfg env T ops).sentAny with
  | true =>
    obtain ⟨u, h1, h2⟩ := h.wire.full hf hs
    exact .inr ⟨u, h1, h2⟩
  | false =>
    left
    have h1 := h.wire.fresh hf hs
    rw [List.nil_append] at h1
    rw [h1]
    refine h.wire.pipe.head_open (h.opened (fun hn => ?_))
    have := (h.quiet hn hf).2
    rw [ht.close (.inr hc)] at this
    cases this

/-- C110. An exchange this node opened closes its side, unless it fails, only after its request was given to rustls
whole, behind the label header: the unit carries the bytes the stream was opened with. -/
theorem C110_request (hX : ∀ l, X.label = some l → l.length ≤ 253) {max : Nat} {b0 : TBridge I A R}
    (h0 : NewExchange X max b0) (ops : List (TBridge.TOp I A))
    (hm : ∀ s now, .mint s now ∈ ops → ∃ (e : Ep I A) (id t : Nat), (e.step cfg env (.dialSucceeded id t)).2 = .stream (some s))
    (hf : (b0.run cfg env T ops).isFailed = false) (hc : .closed ∈ (b0.run cfg env T ops).records.inner.trace) :
    ∃ u, SealedUnit T.B (fun m => ∃ s now, .mint s now ∈ ops ∧ s.outputBuf = [m]) none u ∧ uttered (b0.run cfg env T ops).records.inner.trace = header X.label ++ u := by
  have h := tls_asked (cfg := cfg) (env := env) (T := T) hX h0 ops hm
  have hsd : Bridge.Said (b0.run cfg env T ops).plain := by
    refine TBridge.said_run ops ?_ (fun s now hs => ?_)
    · obtain ⟨conn, d, cmp, rfl | rfl⟩ := h0 <;> exact fun _ s hs => by cases hs
    · obtain ⟨e, id, t, ho⟩ := hm s now hs
      simp only [Ep.step, Ep.Out.stream.injEq] at ho
      unfold Ep.dialSucceeded at ho
      split at ho
      · cases ho
      · simp only [] at ho
        split at ho
        · cases ho
        · split at ho
          · cases ho
          · simp only [Option.some.injEq] at ho
            subst ho
            exact ⟨_, rfl⟩
  have ht := h.tidy hf
  have hu : unsent (b0.run cfg env T ops).records.inner.trace = [] := by
    rw [← h.ready.kept.pend]; exact ht.done hc
  have hsaid := h.said hf
  rw [hu, List.append_nil] at hsaid
  rw [hsaid]
  have hfin := ht.close (.inr hc)
  have hany : (b0.run cfg env T ops).sentAny = true := by
    cases hs : (b0.run cfg env T ops).stream with
    | none =>
      have := (h.quiet hs hf).2
      rw [hfin] at this; cases this
    | some s =>
      rcases hsd hf s hs with g | ⟨k, g⟩
      · exact g
      · obtain ⟨p0, n, hl⟩ := h.life
        have := (hl.live hf s hs).fin hfin
        unfold Sent at this
        rw [g] at this
        exact this.elim
  exact h.wire.full hf hany

/-! Node 1 answers the request of node 0. -/
example : (tlsB0.run Ex.cfg1 Ex.env Ex.T0 (tlsOps [255])).isFailed = false ∧
    (tlsB0.run Ex.cfg1 Ex.env Ex.T0 (tlsOps [255])).sentAny = true ∧
    (uttered (tlsB0.run Ex.cfg1 Ex.env Ex.T0 (tlsOps [255])).records.inner.trace).length > 20 ∧
    (tlsB0.run Ex.cfg1 Ex.env Ex.T0 (tlsOps [255])).records.inner.trace.any (fun e => match e with | .closed => true | _ => false) = true ∧
    unsent (tlsB0.run Ex.cfg1 Ex.env Ex.T0 (tlsOps [255])).records.inner.trace = [] := by decide +kernel

/-! Node 0 opens an exchange and says its request. -/
/-- The endpoint of node 0 with a request waiting for its connection. -/
def tlsE0 : Ep Nat Nat := (Ex.e0.step Ex.cfg Ex.env (.startPushPull 101 .join 5)).1

/-- The stream of node 0's endpoint. -/
def tlsStream0 : Option (Stream Nat Nat) :=
  match (tlsE0.step Ex.cfg Ex.env (.dialSucceeded 1 6)).2 with
  | .stream s => s
  | _ => none

/-- Node 0's side of the exchange. -/
def tlsD0 : TBridge Nat Nat toy16 := .new (.newDialer Ex.X0.label Ex.X0.skipLabel {}) 100 Ex.cmp0 Ex.cfg.maxStreamFrameSize

/-- The calls. -/
def tlsDial : List (TBridge.TOp Nat Nat) :=
  [.transmit, .feed [22] 6] ++ (tlsStream0.map (TBridge.TOp.mint · 6)).toList ++ [.pump 6, .transmit]

/-- What node 0 says is what it would have said over TCP. -/
example : tlsStream0.isSome = true ∧ (tlsD0.run Ex.cfg Ex.env Ex.T0 tlsDial).isFailed = false ∧
    (tlsD0.run Ex.cfg Ex.env Ex.T0 tlsDial).records.inner.trace.any (fun e => match e with | .closed => true | _ => false) = true ∧
    uttered (tlsD0.run Ex.cfg Ex.env Ex.T0 tlsDial).records.inner.trace = tlsWire := by decide +kernel

/-- The same exchange with a frame size of 100. -/
def tlsSmall : TBridge Nat Nat toy16 := .new (.newDialer Ex.X0.label Ex.X0.skipLabel {}) 100 Ex.cmp0 100

/-- A stream with a request of 70000 bytes. -/
def bigStream : Stream Nat Nat := .fresh 0 101 0 100 1000 (some (.pushPull .join, List.replicate 70000 7))

/-- C110 speaks only of exchanges that have not failed. When a unit is refused because it does not fit, its length was
staged before its payload was refused; the failure closes the connection first, which hands what is staged to rustls,
and only then drops what is staged. So rustls, and everything collected from it afterwards, carries a length without
its unit. -/
theorem C110_refused_witness :
    (tlsSmall.run Ex.cfg Ex.env Ex.T0 [.transmit, .feed [22] 6, .mint bigStream 6, .pump 6]).isFailed = true ∧
    uttered (tlsSmall.run Ex.cfg Ex.env Ex.T0 [.transmit, .feed [22] 6, .mint bigStream 6, .pump 6]).records.inner.trace =
      header Ex.X0.label ++ encodeVarint 70000 ∧
    (tlsSmall.run Ex.cfg Ex.env Ex.T0 [.transmit, .feed [22] 6, .mint bigStream 6, .pump 6]).transmit.2 =
      header Ex.X0.label ++ encodeVarint 70000 ++ [255] := by decide +kernel

end Verif.Props
