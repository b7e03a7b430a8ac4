import Verif.Proof.QuicFed
import Verif.Proof.BridgeWire
import Verif.Spec.QuicWire
/-
What a bridge of the QUIC node writes to its QUIC stream.
-/
namespace Verif.QBridge
open Verif Spec
variable {I A : Type} [DecidableEq I] {CI : DataCodec I} {CA : DataCodec A} {T : TEnv} {R : Bytes → Prop}

/-- Bytes leave what a stream has to send alone. -/
def Kept (s s' : Stream I A) : Prop :=
  s'.isFailed = true ∨ s.isFailed = false ∧ (Sent s → Sent s') ∧
    ((∃ k, s.phase = .outSending k) → s'.phase = s.phase) ∧
    (s.phase ≠ .inAwaiting → s'.phase ≠ .inAwaiting ∧ s'.outputBuf = s.outputBuf)

omit [DecidableEq I] in
theorem Kept.refl (s : Stream I A) : Kept s s := by
  cases h : s.isFailed with
  | true => exact .inl h
  | false => exact .inr ⟨h, id, fun _ => rfl, fun h => ⟨h, rfl⟩⟩

omit [DecidableEq I] in
theorem Kept.trans {a b c : Stream I A} (h : Kept a b) (h2 : Kept b c) : Kept a c := by
  rcases h2 with h2 | ⟨h2, h3, h4⟩
  · exact .inl h2
  · rcases h with h | ⟨h5, h6, h7, h8⟩
    · rw [h] at h2; cases h2
    · refine .inr ⟨h5, fun x => h3 (h6 x), fun x => ?_, fun x => ⟨(h4.2 (h8 x).1).1, (h4.2 (h8 x).1).2.trans (h8 x).2⟩⟩
      obtain ⟨k, hk⟩ := x
      have e1 := h7 ⟨k, hk⟩
      exact (h4.1 ⟨k, by rw [e1]; exact hk⟩).trans e1

theorem data_kept (s : Stream I A) (d : Bytes) (now : Nat) : Kept s (s.handleData CI CA d now).1 := by
  have alive : (∀ e, s.phase ≠ .failed e) → s.isFailed = false := by
    intro h
    unfold Stream.isFailed
    split
    · next e hp => exact absurd hp (h e)
    · rfl
  rcases data_effect (CI := CI) (CA := CA) s d now with h1 | ⟨e, _, h1, _⟩ | ⟨b, _, h1, h2, _⟩ | ⟨p, h1, h2⟩ | ⟨p, h1, h2⟩ | ⟨o, h1, h2⟩
  · rw [h1]; exact .refl s
  · rw [h1]; exact .inl rfl
  · rw [h1]; exact .inr ⟨alive h2, id, fun _ => rfl, fun h => ⟨h, rfl⟩⟩
  · rw [h1]
    refine .inr ⟨alive ?_, fun _ => trivial, ?_, fun _ => ⟨by simp, rfl⟩⟩
    · rcases h2 with h2 | ⟨k, h2⟩ <;> rw [h2] <;> simp
    · rintro ⟨k, hk⟩
      rcases h2 with h2 | ⟨k', h2⟩ <;> rw [h2] at hk <;> cases hk
  · rw [h1]
    refine .inr ⟨alive (by rw [h2]; simp), fun h => ?_, ?_, fun h => absurd h2 h⟩
    · unfold Sent at h; rw [h2] at h; exact h.elim
    · rintro ⟨k, hk⟩; rw [h2] at hk; cases hk
  · rw [h1]
    refine .inr ⟨alive (by rw [h2]; simp), fun h => ?_, ?_, fun h => absurd h2 h⟩
    · unfold Sent at h; rw [h2] at h; exact h.elim
    · rintro ⟨k, hk⟩; rw [h2] at hk; cases hk

theorem drain_kept {max now : Nat} (fuel : Nat) : ∀ (s : Stream I A) (buf : Bytes),
    Kept s (Bridge.drainUnits CI CA T none max now fuel s buf).1 := by
  induction fuel with
  | zero => intro s buf; exact .refl s
  | succ fuel ih =>
    intro s buf
    simp only [Bridge.drainUnits]
    split
    · exact .refl s
    · exact .refl s
    · next plain used _ =>
      have hk := data_kept (CI := CI) (CA := CA) s plain now
      split
      · next s1 e hr => rw [hr] at hk; exact hk
      · next s1 hr => rw [hr] at hk; exact hk.trans (ih _ _)

/-- What a chunk does to the sending side. -/
theorem takeChunk_out (b : QBridge I A) (bytes : Bytes) (now : Nat) :
    (b.takeChunk CI CA T bytes now).1.put = b.put ∧
    (b.takeChunk CI CA T bytes now).1.sentAny = b.sentAny ∧
    (b.takeChunk CI CA T bytes now).1.finishCalled = b.finishCalled ∧
    (b.takeChunk CI CA T bytes now).1.precompressed = b.precompressed ∧
    Kept b.stream (b.takeChunk CI CA T bytes now).1.stream ∧
    ((b.inboundValidated = true ∧ (b.takeChunk CI CA T bytes now).1.inboundValidated = true ∧
        (b.takeChunk CI CA T bytes now).1.outboundWritten = b.outboundWritten ∧
        (b.takeChunk CI CA T bytes now).1.pendingOut = b.pendingOut) ∨
     (b.inboundValidated = false ∧ (b.takeChunk CI CA T bytes now).1.inboundValidated = true ∧
        (∃ n, classifyHeader (b.accum ++ bytes) b.label b.skip = .accepted n) ∧
        (((b.eager = true ∨ b.outboundWritten = true) ∧
            (b.takeChunk CI CA T bytes now).1.outboundWritten = b.outboundWritten ∧
            (b.takeChunk CI CA T bytes now).1.pendingOut = b.pendingOut) ∨
         ((b.eager = false ∧ b.outboundWritten = false) ∧
            (b.takeChunk CI CA T bytes now).1.outboundWritten = true ∧
            (b.takeChunk CI CA T bytes now).1.pendingOut = b.pendingOut ++ b.prefixBytes))) ∨
     (b.inboundValidated = false ∧ (b.takeChunk CI CA T bytes now).1.inboundValidated = false ∧
        (b.takeChunk CI CA T bytes now).1.accum = b.accum ++ bytes ∧
        (b.takeChunk CI CA T bytes now).1.stream = b.stream ∧
        (b.takeChunk CI CA T bytes now).1.outboundWritten = b.outboundWritten ∧
        (b.takeChunk CI CA T bytes now).1.pendingOut = b.pendingOut)) := by
  unfold takeChunk
  dsimp only
  split
  · next hv =>
    exact ⟨rfl, rfl, rfl, rfl, drain_kept _ _ _, .inl ⟨hv, hv, rfl, rfl⟩⟩
  · next hv =>
    have hv' : b.inboundValidated = false := Bool.eq_false_iff.2 hv
    split
    · next n hn =>
      by_cases ho : (!b.eager && !b.outboundWritten) = true
      · rw [if_pos ho]
        refine ⟨rfl, rfl, rfl, rfl, drain_kept _ _ _, .inr (.inl ⟨hv', rfl, ⟨n, hn⟩, .inr ⟨by simpa using ho, rfl, rfl⟩⟩)⟩
      · rw [if_neg ho]
        refine ⟨rfl, rfl, rfl, rfl, drain_kept _ _ _, .inr (.inl ⟨hv', rfl, ⟨n, hn⟩, .inl ⟨?_, rfl, rfl⟩⟩)⟩
        cases he : b.eager <;> cases hw : b.outboundWritten <;> simp [he, hw] at ho ⊢
    · exact ⟨rfl, rfl, rfl, rfl, .refl _, .inr (.inr ⟨hv', hv', rfl, rfl, rfl, rfl⟩)⟩
    · exact ⟨rfl, rfl, rfl, rfl, .refl _, .inr (.inr ⟨hv', hv', rfl, rfl, rfl, rfl⟩)⟩

theorem readOf_append (l l2 : List Got) : readOf (l ++ l2) = readOf l ++ readOf l2 := by
  induction l with
  | nil => rfl
  | cons a l ih => cases a <;> simp [readOf, ih]

theorem readOf_bytes (l : List Bytes) : readOf (l.map .bytes) = l.flatten := by
  induction l with
  | nil => rfl
  | cons a l ih => simp [readOf, ih]

/-- The unit of a bridge: a dialled one carries the request its stream was opened with, an accepted one an answer (`R`). -/
def Unit_ (T : TEnv) (s0 : Stream I A) (R : Bytes → Prop) (b : QBridge I A) (u : Bytes) : Prop :=
  ∃ body, QUnit body u ∧ (b.eager = true → body = compressPayload T.B b.cmp s0.outputBuf.flatten) ∧ (b.eager = false → R body)

/-- What the stream of an accepted bridge has to send is an answer. -/
def Resp (T : TEnv) (R : Bytes → Prop) (b : QBridge I A) : Prop :=
  b.isFailed = false → b.stream.isFailed = false → b.eager = false → b.stream.outputBuf = [] ∨
    R (if b.precompressed then b.stream.outputBuf.flatten else compressPayload T.B b.cmp b.stream.outputBuf.flatten)

/-- What a bridge wrote so far, and what waits to be written. -/
structure Wrote (T : TEnv) (s0 : Stream I A) (R : Bytes → Prop) (b : QBridge I A) : Prop where
  origin : b.eager = true → ∃ k, s0.phase = .outSending k
  shown : b.eager = false → b.outboundWritten = b.inboundValidated
  blank : b.outboundWritten = false → b.put = [] ∧ b.pendingOut = [] ∧ b.sentAny = false
  raw : b.inboundValidated = false → b.accum = readOf b.got ∧ ∃ l, l ≠ [] ∧ b.label = some l
  seen : b.inboundValidated = true → ∃ w rest body, readOf b.got = w ++ rest ∧ Behind b.label b.skip w body
  all : ∃ u, (u = [] ∨ Unit_ T s0 R b u) ∧ b.put ++ b.pendingOut <+: b.prefixBytes ++ u
  full : b.isFailed = false → b.outboundWritten = true →
    ∃ u, (b.sentAny = true ∧ Unit_ T s0 R b u ∨ b.sentAny = false ∧ u = []) ∧ b.put ++ b.pendingOut = b.prefixBytes ++ u
  any : b.isFailed = false → b.stream.isFailed = false → b.sentAny = true → Sent b.stream
  req : b.isFailed = false → b.stream.isFailed = false → b.eager = true → b.sentAny = false →
    (∃ k, b.stream.phase = .outSending k) ∧ b.stream.outputBuf = s0.outputBuf ∧ b.precompressed = false
  wait : b.isFailed = false → b.stream.isFailed = false → b.eager = false → b.inboundValidated = false →
    b.stream.phase = .inAwaiting
  fin : b.finishCalled = true → b.outboundWritten = true ∧ b.pendingOut = [] ∧
    (∃ u, (b.sentAny = true ∧ Unit_ T s0 R b u ∨ b.eager = false ∧ b.sentAny = false ∧ u = []) ∧ b.put = b.prefixBytes ++ u) ∧
    (b.isFailed = false → b.stream.isFailed = false → Sent b.stream)

omit [DecidableEq I] in
theorem Alike.unit {b b' : QBridge I A} (h : Alike b b') {s0 : Stream I A} {u : Bytes} (hu : Unit_ T s0 R b u) : Unit_ T s0 R b' u := by
  obtain ⟨body, h1, h2, h3⟩ := hu
  exact ⟨body, h1, fun he => by rw [h.cmp]; exact h2 (by rw [← h.eager]; exact he), fun he => h3 (by rw [← h.eager]; exact he)⟩

omit [DecidableEq I] in
theorem Alike.prefixBytes {b b' : QBridge I A} (h : Alike b b') : b'.prefixBytes = b.prefixBytes := by
  unfold QBridge.prefixBytes; rw [h.label]

/-- A bridge that failed: its queue is the same, or empty. -/
theorem Wrote.failed {s0 : Stream I A} {b b' : QBridge I A} (h : Wrote T s0 R b) (ha : Alike b b') (hf : b'.isFailed = true)
    (h1 : b'.put = b.put) (h2 : b'.pendingOut = b.pendingOut ∨ b'.pendingOut = []) (h3 : b'.sentAny = b.sentAny)
    (h4 : b'.finishCalled = b.finishCalled) (h5 : b'.outboundWritten = b.outboundWritten)
    (h6 : b'.inboundValidated = b.inboundValidated) (h7 : b'.accum = b.accum) (h8 : readOf b'.got = readOf b.got) :
    Wrote T s0 R b' := by
  refine ⟨by rw [ha.eager]; exact h.origin, by rw [ha.eager, h5, h6]; exact h.shown, ?_, ?_, ?_, ?_,
    fun g => ?_, fun g => ?_, fun g => ?_, fun g => ?_, fun g => ?_⟩
  · rw [h5, h1, h3]
    intro g
    obtain ⟨g1, g2, g3⟩ := h.blank g
    refine ⟨g1, ?_, g3⟩
    rcases h2 with h2 | h2
    · rw [h2]; exact g2
    · exact h2
  · rw [h6, h7, h8, ha.label]; exact h.raw
  · rw [h6, h8, ha.label, ha.skip]; exact h.seen
  · obtain ⟨u, g1, g2⟩ := h.all
    refine ⟨u, g1.imp id ha.unit, ?_⟩
    rw [ha.prefixBytes, h1]
    rcases h2 with h2 | h2
    · rw [h2]; exact g2
    · rw [h2, List.append_nil]; exact (List.prefix_append _ _).trans g2
  · rw [hf] at g; cases g
  · rw [hf] at g; cases g
  · rw [hf] at g; cases g
  · rw [hf] at g; cases g
  · rw [h4] at g
    obtain ⟨g1, g2, ⟨u, g3, g4⟩, g5⟩ := h.fin g
    refine ⟨by rw [h5]; exact g1, ?_, ⟨u, ?_, by rw [h1, ha.prefixBytes]; exact g4⟩, fun g => ?_⟩
    · rcases h2 with h2 | h2
      · rw [h2]; exact g2
      · exact h2
    · rw [h3, ha.eager]; exact g3.imp (fun g => ⟨g.1, ha.unit g.2⟩) id
    · rw [hf] at g; cases g

omit [DecidableEq I] in
theorem fail_out (b : QBridge I A) (r : LinkFail) : (b.fail r).put = b.put ∧ (b.fail r).pendingOut = b.pendingOut ∧
    (b.fail r).sentAny = b.sentAny ∧ (b.fail r).finishCalled = b.finishCalled ∧
    (b.fail r).outboundWritten = b.outboundWritten ∧ (b.fail r).inboundValidated = b.inboundValidated ∧
    (b.fail r).accum = b.accum := by
  unfold fail; split <;> exact ⟨rfl, rfl, rfl, rfl, rfl, rfl, rfl⟩

theorem Wrote.fail {s0 : Stream I A} {b : QBridge I A} (h : Wrote T s0 R b) (r : LinkFail) : Wrote T s0 R (b.fail r) := by
  obtain ⟨h1, h2, h3, h4, h5, h6, h7⟩ := fail_out b r
  exact h.failed (fail_alike b r) (fail_rest b r).2.2.1 h1 (.inl h2) h3 h4 h5 h6 h7 (by rw [(fail_rest b r).1])

/-- Dropping a bridge of which only the stream was touched. -/
theorem Wrote.drop {s0 : Stream I A} {b : QBridge I A} (h : Wrote T s0 R b) (s : Stream I A) (hk : Stream.Kin b.stream s) (r : LinkFail) :
    Wrote T s0 R ({ b with stream := s }.drop r) := by
  have h0 := fail_out { b with stream := s, pendingOut := [] } r
  obtain ⟨h1, h2, h3, h4, h5, h6, h7⟩ := h0
  exact h.failed ((Alike.stream hk).trans (drop_alike _ r)) (drop_rest _ r).2.2.1 h1 (.inr h2) h3 h4 h5 h6 h7
    (by rw [(drop_rest _ r).1])

omit [DecidableEq I] in
theorem isFailed_congr {b b' : QBridge I A} (h : b'.phase = b.phase) : b'.isFailed = b.isFailed := by
  unfold isFailed; rw [h]

/-- A chunk. -/
theorem Wrote.chunk {s0 : Stream I A} {b : QBridge I A} (h : Wrote T s0 R b) (bytes : Bytes) (now : Nat) :
    Wrote T s0 R (b.takeChunk CI CA T bytes now).1 := by
  have ha := takeChunk_alike (CI := CI) (CA := CA) (T := T) b bytes now
  have hph := takeChunk_phase (CI := CI) (CA := CA) (T := T) b bytes now
  have hgot := (takeChunk_got (CI := CI) (CA := CA) (T := T) b bytes now).1
  obtain ⟨h1, h2, h3, h4, hk, hc⟩ := takeChunk_out (CI := CI) (CA := CA) (T := T) b bytes now
  generalize (b.takeChunk CI CA T bytes now).1 = b' at *
  have hf := isFailed_congr hph
  have hread : readOf b'.got = readOf b.got ++ bytes := by rw [hgot, readOf_append]; simp [readOf]
  have hlive : b'.stream.isFailed = false → b.stream.isFailed = false ∧ (Sent b.stream → Sent b'.stream) ∧
      ((∃ k, b.stream.phase = .outSending k) → b'.stream.phase = b.stream.phase) ∧
      (b.stream.phase ≠ .inAwaiting → b'.stream.phase ≠ .inAwaiting ∧ b'.stream.outputBuf = b.stream.outputBuf) := by
    intro g
    rcases hk with hk | hk
    · rw [hk] at g; cases g
    · exact hk
  have hany : b'.isFailed = false → b'.stream.isFailed = false → b'.sentAny = true → Sent b'.stream := by
    rw [hf, h2]
    intro g1 g2 g3
    obtain ⟨k1, k2, _⟩ := hlive g2
    exact k2 (h.any g1 k1 g3)
  have hreq : b'.isFailed = false → b'.stream.isFailed = false → b'.eager = true → b'.sentAny = false →
      (∃ k, b'.stream.phase = .outSending k) ∧ b'.stream.outputBuf = s0.outputBuf ∧ b'.precompressed = false := by
    rw [hf, h2, h4, ha.eager]
    intro g1 g2 g3 g4
    obtain ⟨k1, _, k3⟩ := hlive g2
    obtain ⟨q1, q2, q3⟩ := h.req g1 k1 g3 g4
    refine ⟨by rw [k3.1 q1]; exact q1, ?_, q3⟩
    obtain ⟨k, hk⟩ := q1
    rw [(k3.2 (by rw [hk]; simp)).2]; exact q2
  have hseen : b.inboundValidated = true → ∃ w rest body, readOf b'.got = w ++ rest ∧ Behind b'.label b'.skip w body := by
    intro g
    obtain ⟨w, rest, body, g1, g2⟩ := h.seen g
    exact ⟨w, rest ++ bytes, body, by rw [hread, g1, List.append_assoc], by rw [ha.label, ha.skip]; exact g2⟩
  have hfinS : b.finishCalled = true → b'.isFailed = false → b'.stream.isFailed = false → Sent b'.stream := by
    intro g g1 g2
    obtain ⟨k1, k2, _⟩ := hlive g2
    exact k2 ((h.fin g).2.2.2 (by rw [← hf]; exact g1) k1)
  -- the sending side is as it was
  have same : b'.outboundWritten = b.outboundWritten → b'.pendingOut = b.pendingOut →
      (b'.eager = false → b'.outboundWritten = b'.inboundValidated) →
      (b'.inboundValidated = false → b'.accum = readOf b'.got ∧ ∃ l, l ≠ [] ∧ b'.label = some l) →
      (b'.inboundValidated = true → ∃ w rest body, readOf b'.got = w ++ rest ∧ Behind b'.label b'.skip w body) →
      (b'.isFailed = false → b'.stream.isFailed = false → b'.eager = false → b'.inboundValidated = false →
        b'.stream.phase = .inAwaiting) → Wrote T s0 R b' := by
    intro e1 e2 e3 e4 e5 e6
    refine ⟨by rw [ha.eager]; exact h.origin, e3, by rw [e1, e2, h1, h2]; exact h.blank, e4, e5, ?_, ?_, hany, hreq, e6, ?_⟩
    · obtain ⟨u, g1, g2⟩ := h.all
      exact ⟨u, g1.imp id ha.unit, by rw [h1, e2, ha.prefixBytes]; exact g2⟩
    · rw [hf, e1, e2, h1, h2, ha.prefixBytes]
      intro g1 g2
      obtain ⟨u, g3, g4⟩ := h.full g1 g2
      exact ⟨u, g3.imp (fun g => ⟨g.1, ha.unit g.2⟩) id, g4⟩
    · rw [h3]
      intro g
      obtain ⟨g1, g2, ⟨u, g3, g4⟩, _⟩ := h.fin g
      refine ⟨by rw [e1]; exact g1, by rw [e2]; exact g2, ⟨u, ?_, by rw [h1, ha.prefixBytes]; exact g4⟩, hfinS g⟩
      rw [h2, ha.eager]
      exact g3.imp (fun g => ⟨g.1, ha.unit g.2⟩) id
  rcases hc with ⟨c1, c2, c3, c4⟩ | ⟨c1, c2, ⟨n, c3⟩, c4⟩ | ⟨c1, c2, c3, c4, c5, c6⟩
  · refine same c3 c4 ?_ (fun g => ?_) (fun _ => hseen c1) (fun _ _ _ g => ?_)
    · rw [ha.eager, c3, c2, ← c1]; exact h.shown
    · rw [c2] at g; cases g
    · rw [c2] at g; cases g
  · obtain ⟨r1, l, hl, hlab⟩ := h.raw c1
    have hseen' : ∃ w rest body, readOf b'.got = w ++ rest ∧ Behind b'.label b'.skip w body := by
      refine ⟨readOf b.got ++ bytes, [], (readOf b.got ++ bytes).drop n, by rw [hread, List.append_nil], ?_⟩
      rw [r1] at c3
      have := (classify_admits _ _ _ _).1 ⟨n, c3, rfl⟩
      rw [ha.label, ha.skip]
      rw [hlab] at this ⊢
      unfold Behind
      split
      · next h => cases h
      · next h => exact absurd (Option.some.inj h) hl
      · next h => cases h; exact this
    rcases c4 with ⟨d1, d2, d3⟩ | ⟨⟨d0, d1⟩, d2, d3⟩
    · refine same d2 d3 (fun g => ?_) (fun g => ?_) (fun _ => hseen') (fun _ _ _ g => ?_)
      · rw [ha.eager] at g
        rcases d1 with d1 | d1
        · rw [d1] at g; cases g
        · rw [d2, d1, c2]
      · rw [c2] at g; cases g
      · rw [c2] at g; cases g
    · obtain ⟨b1, b2, b3⟩ := h.blank d1
      have hput : b'.put ++ b'.pendingOut = b'.prefixBytes := by
        rw [h1, d3, b1, b2, ha.prefixBytes]; rfl
      refine ⟨by rw [ha.eager]; exact h.origin, fun _ => by rw [d2, c2], fun g => ?_, fun g => ?_, fun _ => hseen', ?_, ?_, hany, hreq,
        fun _ _ _ g => ?_, fun g => ?_⟩
      · rw [d2] at g; cases g
      · rw [c2] at g; cases g
      · exact ⟨[], .inl rfl, by rw [hput, List.append_nil]⟩
      · intro _ _
        exact ⟨[], .inr ⟨by rw [h2]; exact b3, rfl⟩, by rw [hput, List.append_nil]⟩
      · rw [c2] at g; cases g
      · rw [h3] at g
        have := (h.fin g).1
        rw [d1] at this; cases this
  · refine same c5 c6 ?_ (fun _ => ⟨?_, ?_⟩) (fun g => ?_) (fun g1 g2 g3 _ => ?_)
    · rw [ha.eager, c5, c2]; intro g; rw [h.shown g, c1]
    · rw [c3, hread, (h.raw c1).1]
    · rw [ha.label]; exact (h.raw c1).2
    · rw [c2] at g; cases g
    · rw [c4] at g2 ⊢
      exact h.wait (by rw [← hf]; exact g1) g2 (by rw [← ha.eager]; exact g3) c1

/-- Only bookkeeping changed. -/
theorem Wrote.same {s0 : Stream I A} {b b' : QBridge I A} (h : Wrote T s0 R b) (ha : Alike b b') (hf : b'.isFailed = b.isFailed)
    (h0 : b'.stream = b.stream) (h1 : b'.put = b.put) (h2 : b'.pendingOut = b.pendingOut) (h3 : b'.sentAny = b.sentAny)
    (h4 : b'.finishCalled = b.finishCalled) (h5 : b'.outboundWritten = b.outboundWritten)
    (h6 : b'.inboundValidated = b.inboundValidated) (h7 : b'.accum = b.accum) (h8 : readOf b'.got = readOf b.got)
    (h9 : b'.precompressed = b.precompressed) : Wrote T s0 R b' := by
  refine ⟨by rw [ha.eager]; exact h.origin, by rw [ha.eager, h5, h6]; exact h.shown, by rw [h5, h1, h2, h3]; exact h.blank,
    by rw [h6, h7, h8, ha.label]; exact h.raw, by rw [h6, h8, ha.label, ha.skip]; exact h.seen, ?_, ?_,
    by rw [hf, h0, h3]; exact h.any, by rw [hf, h0, ha.eager, h3, h9]; exact h.req, by rw [hf, h0, ha.eager, h6]; exact h.wait, ?_⟩
  · obtain ⟨u, g1, g2⟩ := h.all
    exact ⟨u, g1.imp id ha.unit, by rw [h1, h2, ha.prefixBytes]; exact g2⟩
  · rw [hf, h5, h3, h1, h2, ha.prefixBytes]
    intro g1 g2
    obtain ⟨u, g3, g4⟩ := h.full g1 g2
    exact ⟨u, g3.imp (fun g => ⟨g.1, ha.unit g.2⟩) id, g4⟩
  · rw [h4, h5, h2, h3, ha.eager, h1, ha.prefixBytes, hf, h0]
    intro g
    obtain ⟨g1, g2, ⟨u, g3, g4⟩, g5⟩ := h.fin g
    exact ⟨g1, g2, ⟨u, g3.imp (fun g => ⟨g.1, ha.unit g.2⟩) id, g4⟩, g5⟩

omit [DecidableEq I] in
theorem QLife.alive {p0 : Phase} {n : Nat} {b : QBridge I A} (h : QLife p0 n b) (hf : b.isFailed = false)
    (hs : b.stream.isFailed = false) : Life p0 n b.stream := by
  rcases h.life with h | ⟨_, _, h | ⟨h, _⟩⟩
  · exact h
  · rw [hs] at h; cases h
  · rw [hf] at h; cases h

/-- The label header goes out first. -/
theorem Wrote.label {s0 : Stream I A} {b : QBridge I A} (h : Wrote T s0 R b) (hf : b.isFailed = false)
    (hs : b.stream.isFailed = false) : Wrote T s0 R b.putLabel ∧ b.putLabel.stream = b.stream ∧
    b.putLabel.isFailed = false ∧ b.putLabel.precompressed = b.precompressed ∧
    (b.putLabel.outboundWritten = true ∨ b.eager = false ∧ b.putLabel.inboundValidated = false) := by
  have ha := putLabel_alike b
  unfold putLabel at ha ⊢
  split
  · next hc =>
    rw [if_pos hc] at ha
    have hw : b.outboundWritten = false := by revert hc; cases b.outboundWritten <;> simp
    have hcc : b.eager = true ∨ b.inboundValidated = true := by revert hc; cases b.eager <;> cases b.inboundValidated <;> simp [hw]
    obtain ⟨b1, b2, b3⟩ := h.blank hw
    refine ⟨⟨h.origin, fun g => ?_, fun g => ?_, h.raw, h.seen, ⟨[], .inl rfl, ?_⟩, fun _ _ => ⟨[], .inr ⟨b3, rfl⟩, ?_⟩, h.any, h.req, h.wait, fun g => ?_⟩,
      rfl, hf, rfl, .inl rfl⟩
    · rcases hcc with hcc | hcc
      · have g : b.eager = false := g
        rw [hcc] at g; cases g
      · exact hcc.symm
    · cases g
    · show b.put ++ (b.pendingOut ++ b.prefixBytes) <+: b.prefixBytes ++ []
      rw [b1, b2, List.append_nil]; simp
    · show b.put ++ (b.pendingOut ++ b.prefixBytes) = b.prefixBytes ++ []
      rw [b1, b2, List.append_nil]; simp
    · have := (h.fin g).1
      rw [hw] at this; cases this
  · next hc =>
    refine ⟨h, rfl, hf, rfl, ?_⟩
    revert hc
    cases b.outboundWritten <;> cases b.eager <;> cases b.inboundValidated <;> simp

/-- What the stream has to send is queued. -/
theorem Wrote.gather {s0 : Stream I A} {b : QBridge I A} {n : Nat} (h : Wrote T s0 R b) (hl : QLife s0.phase n b) (hr : Resp T R b) (now : Nat)
    (hf : b.isFailed = false) (hs : b.stream.isFailed = false) : Wrote T s0 R (b.gather T now) := by
  have hlife := hl.alive hf hs
  obtain ⟨h1, h2, h3, h4, h5⟩ := h.label hf hs
  have hal := putLabel_alike b
  unfold QBridge.gather
  dsimp only
  rw [h2]
  generalize b.putLabel = c at *
  have hcs : c.stream.isFailed = false := by rw [h2]; exact hs
  rcases hlife.poll now with ⟨p1, p2, p3⟩ | ⟨p1, p2⟩ | ⟨p1, p2, p3, p4, p5⟩
  · rcases hx : b.stream.pollTransmit now with ⟨s', r⟩
    rw [hx] at p1 p3
    dsimp only at p1 p3
    subst p3
    dsimp only
    have nf : ∀ {P : Prop}, s'.isFailed = false → P := fun g => by rw [p1] at g; cases g
    exact ⟨h1.origin, h1.shown, h1.blank, h1.raw, h1.seen, h1.all, h1.full, fun _ g => nf g, fun _ g => nf g, fun _ g => nf g,
      fun g => ⟨(h1.fin g).1, (h1.fin g).2.1, (h1.fin g).2.2.1, fun _ g => nf g⟩⟩
  · rw [p1]
    dsimp only
    have : ({ c with stream := b.stream } : QBridge I A) = c := by rw [← h2]
    rw [this]; exact h1
  · rcases hx : b.stream.pollTransmit now with ⟨s', r⟩
    rw [hx] at p1 p2 p3
    dsimp only at p1 p2 p3
    subst p3
    dsimp only
    have hunsent : ∀ {P : Prop}, Sent b.stream → P := by
      intro P g
      unfold Sent at g
      rcases p5 with p5 | ⟨k, p5⟩ <;> rw [p5] at g <;> exact g.elim
    have hw : c.outboundWritten = true := by
      rcases h5 with h5 | ⟨h5, h6⟩
      · exact h5
      · have hwait := h1.wait h3 hcs (by rw [hal.eager]; exact h5) h6
        rw [h2] at hwait
        rcases p5 with p5 | ⟨k, p5⟩ <;> rw [p5] at hwait <;> cases hwait
    have hns : c.sentAny = false := by
      cases hc : c.sentAny with
      | false => rfl
      | true =>
        have := h1.any h3 hcs hc
        rw [h2] at this
        exact hunsent this
    have hnf : c.finishCalled = false := by
      cases hc : c.finishCalled with
      | false => rfl
      | true =>
        have := (h1.fin hc).2.2.2 h3 hcs
        rw [h2] at this
        exact hunsent this
    have hval : c.eager = false → c.inboundValidated = true := fun g => by rw [← h1.shown g]; exact hw
    have hun : Unit_ T s0 R c (c.unit T b.stream.outputBuf.flatten) := by
      refine ⟨_, rfl, fun he => ?_, fun he => ?_⟩
      · obtain ⟨_, q2, q3⟩ := h1.req h3 hcs he hns
        rw [h2] at q2
        rw [q3, q2]; rfl
      · rcases hr hf hs (by rw [← hal.eager]; exact he) with q | q
        · exact absurd q p4
        · rw [h4, hal.cmp]; exact q
    obtain ⟨u, g1, g2⟩ := h1.full h3 hw
    have hu : u = [] := by
      rcases g1 with ⟨g, _⟩ | ⟨_, g⟩
      · rw [hns] at g; cases g
      · exact g
    rw [hu, List.append_nil] at g2
    have heq : c.put ++ (c.pendingOut ++ c.unit T b.stream.outputBuf.flatten) = c.prefixBytes ++ c.unit T b.stream.outputBuf.flatten := by
      rw [← List.append_assoc, g2]
    refine ⟨h1.origin, h1.shown, fun g => ?_, h1.raw, h1.seen, ⟨_, .inr hun, ?_⟩, fun _ _ => ⟨_, .inl ⟨rfl, hun⟩, heq⟩,
      fun _ _ _ => p2, fun _ _ _ g => ?_, fun _ _ g g' => ?_, fun g => ?_⟩
    · have g : c.outboundWritten = false := g
      rw [hw] at g; cases g
    · exact heq ▸ List.prefix_refl _
    · cases g
    · have := hval g
      have g' : c.inboundValidated = false := g'
      rw [this] at g'; cases g'
    · have g : c.finishCalled = true := g
      rw [hnf] at g; cases g

theorem Wrote.move {s0 : Stream I A} {b b' : QBridge I A} {n : Nat} (h : Wrote T s0 R b) (hl : QLife s0.phase n b)
    (hr : Resp T R b) (hm : BMove CI CA T b b') : Wrote T s0 R b' := by
  have hal := hm.alike
  have recv : Wrote T s0 R b.observeRecvFin ∧ b.observeRecvFin.stream = b.stream := by
    have ha := observeRecvFin_alike b
    unfold observeRecvFin at ha ⊢
    split
    · next hp =>
      refine ⟨h.same (by rw [hp] at ha; exact ha) (by unfold isFailed; rw [hp]) rfl rfl rfl rfl rfl rfl rfl rfl ?_ rfl, rfl⟩
      rw [readOf_append]; simp [readOf]
    · next hp =>
      refine ⟨h.same (by rw [hp] at ha; exact ha) (by unfold isFailed; rw [hp]) rfl rfl rfl rfl rfl rfl rfl rfl ?_ rfl, rfl⟩
      rw [readOf_append]; simp [readOf]
    · exact ⟨h, rfl⟩
  cases hm with
  | flag q => exact h.same hal rfl rfl rfl rfl rfl rfl rfl rfl rfl rfl rfl
  | wrote k =>
    have e : (b.put ++ b.pendingOut.take k) ++ b.pendingOut.drop k = b.put ++ b.pendingOut := by
      rw [List.append_assoc, List.take_append_drop]
    refine ⟨h.origin, h.shown, fun g => ?_, h.raw, h.seen, ?_, fun g1 g2 => ?_, h.any, h.req, h.wait, fun g => ?_⟩
    · obtain ⟨g1, g2, g3⟩ := h.blank g
      exact ⟨by simp [g1, g2], by simp [g2], g3⟩
    · obtain ⟨u, g1, g2⟩ := h.all
      exact ⟨u, g1, by dsimp only; rw [e]; exact g2⟩
    · obtain ⟨u, g3, g4⟩ := h.full g1 g2
      exact ⟨u, g3, by dsimp only; rw [e]; exact g4⟩
    · obtain ⟨g1, g2, ⟨u, g3, g4⟩, g5⟩ := h.fin g
      refine ⟨g1, by simp [g2], ⟨u, g3, ?_⟩, g5⟩
      show b.put ++ b.pendingOut.take k = b.prefixBytes ++ u
      rw [g2, List.take_nil, List.append_nil]; exact g4
  | finish hf hs hp hw hd =>
    have hw' : b.outboundWritten = true := by
      rcases hw with hw | ⟨g1, g2⟩
      · exact hw
      · have hwait := h.wait hf hs g1 g2
        rcases hd with hd | hd
        · have := h.any hf hs hd
          unfold Sent at this
          rw [hwait] at this; exact this.elim
        · unfold Stream.isDone at hd; rw [hwait] at hd; simp at hd
    have hsent : Sent b.stream := by
      rcases hd with hd | hd
      · exact h.any hf hs hd
      · unfold Stream.isDone at hd
        unfold Sent
        have : b.stream.phase = .done := by revert hd; cases b.stream.phase <;> simp
        rw [this]; trivial
    refine ⟨h.origin, h.shown, h.blank, h.raw, h.seen, h.all, h.full, h.any, h.req, h.wait, fun _ => ⟨hw', hp, ?_, fun _ _ => hsent⟩⟩
    obtain ⟨u, g1, g2⟩ := h.full hf hw'
    refine ⟨u, ?_, by rw [hp, List.append_nil] at g2; exact g2⟩
    rcases g1 with g1 | ⟨g1, g3⟩
    · exact .inl g1
    · refine .inr ⟨?_, g1, g3⟩
      show b.eager = false
      cases he : b.eager with
      | false => rfl
      | true =>
        obtain ⟨⟨k, hk⟩, _⟩ := h.req hf hs he g1
        unfold Sent at hsent
        rw [hk] at hsent; exact hsent.elim
  | drop r => exact h.drop b.stream (.refl _) r
  | fail r => exact h.fail r
  | gather now hf hs => exact h.gather hl hr now hf hs
  | timeout now r => exact h.drop _ (Stream.handleTimeout_kin _ now) r
  | cut now r => exact h.drop _ (Stream.handleData_kin _ _ now) r
  | sendFin =>
    unfold observeSendFin at hal ⊢
    split
    · next hp => exact h.same (by rw [hp] at hal; exact hal) (by unfold isFailed; rw [hp]) rfl rfl rfl rfl rfl rfl rfl rfl rfl rfl
    · next hp => exact h.same (by rw [hp] at hal; exact hal) (by unfold isFailed; rw [hp]) rfl rfl rfl rfl rfl rfl rfl rfl rfl rfl
    · exact h
  | chunk bytes now _ => exact h.chunk bytes now
  | refuse bytes now r => exact (h.chunk bytes now).drop (b.takeChunk CI CA T bytes now).1.stream (.refl _) r
  | recvFin => exact recv.1
  | late r _ => exact recv.1.drop b.observeRecvFin.stream (.refl _) r

/-- A payload is handed over. -/
theorem Wrote.commit {s0 : Stream I A} {b b' : QBridge I A} {n : Nat} {ev : PayloadEvent I A} {rest : List (PayloadEvent I A)}
    (h : Wrote T s0 R b) (hl : QLife s0.phase n b) (hev : b.stream.endpointEvents = ev :: rest) (hc : b.Committed R ev rest b') :
    Wrote T s0 R b' := by
  have hfit := (hl.commit hev hc).2
  rcases hc with rfl | ⟨hq, body, dl, hR, rfl⟩
  · exact ⟨h.origin, h.shown, h.blank, h.raw, h.seen, h.all, h.full, h.any, h.req, h.wait, h.fin⟩
  · have he : b.eager = false := by
      cases he : b.eager with
      | false => rfl
      | true =>
        obtain ⟨k, hk⟩ := h.origin he
        rw [hk] at hfit
        cases ev <;> simp [PayloadEvent.isRequest] at hq
        cases k <;> exact hfit.elim
    refine ⟨h.origin, h.shown, h.blank, h.raw, h.seen, h.all, h.full, h.any, fun _ _ g => ?_, h.wait, h.fin⟩
    · have g : b.eager = true := g
      rw [he] at g; cases g

theorem Wrote.mono {s0 : Stream I A} {b : QBridge I A} {R' : Bytes → Prop} (h : Wrote T s0 R b) (hR : ∀ x, R x → R' x) :
    Wrote T s0 R' b := by
  have hu : ∀ {u}, Unit_ T s0 R b u → Unit_ T s0 R' b u := by
    rintro u ⟨body, h1, h2, h3⟩
    exact ⟨body, h1, h2, fun he => hR _ (h3 he)⟩
  refine ⟨h.origin, h.shown, h.blank, h.raw, h.seen, ?_, fun g1 g2 => ?_, h.any, h.req, h.wait, fun g => ?_⟩
  · obtain ⟨u, g1, g2⟩ := h.all
    exact ⟨u, g1.imp id hu, g2⟩
  · obtain ⟨u, g3, g4⟩ := h.full g1 g2
    exact ⟨u, g3.imp (fun g => ⟨g.1, hu g.2⟩) id, g4⟩
  · obtain ⟨g1, g2, ⟨u, g3, g4⟩, g5⟩ := h.fin g
    exact ⟨g1, g2, ⟨u, g3.imp (fun g => ⟨g.1, hu g.2⟩) id, g4⟩, g5⟩

/-- A bridge just made. -/
theorem Wrote.new {s0 : Stream I A} (ch sid slot : Nat) (cmp : CmpOptions) (max : Nat) (label : Option Bytes) (skip eager : Bool)
    (h1 : eager = true → ∃ k, s0.phase = .outSending k) (h2 : eager = false → s0.phase = .inAwaiting) :
    Wrote T s0 R { QBridge.new s0 ch sid cmp max label skip eager with slot := slot } := by
  refine ⟨h1, fun _ => rfl, fun _ => ⟨rfl, rfl, rfl⟩, fun g => ⟨rfl, ?_⟩, fun g => ⟨[], [], [], rfl, ?_⟩, ⟨[], .inl rfl, List.nil_prefix⟩, fun _ g => ⟨[], .inr ⟨rfl, rfl⟩, ?_⟩,
    fun _ _ g => ?_, fun _ _ g _ => ⟨h1 g, rfl, rfl⟩, fun _ _ g _ => h2 g, fun g => ?_⟩
  · have g : (effectiveLabel label).isNone = false := g
    show ∃ l, l ≠ [] ∧ effectiveLabel label = some l
    unfold effectiveLabel at g ⊢
    cases label with
    | none => simp at g
    | some l => cases l with
      | nil => simp at g
      | cons x l => exact ⟨x :: l, by simp, rfl⟩
  · have g : (effectiveLabel label).isNone = true := g
    show Behind (effectiveLabel label) skip [] []
    rw [Option.isNone_iff_eq_none] at g
    rw [g]; rfl
  · have g : (effectiveLabel label).isNone = true := g
    rw [Option.isNone_iff_eq_none] at g
    unfold QBridge.prefixBytes QBridge.new
    dsimp only
    rw [g]
  · cases g
  · cases g

/-! ### What an accepted bridge has to send -/

theorem Resp.mono {b : QBridge I A} {R' : Bytes → Prop} (h : Resp T R b) (hR : ∀ x, R x → R' x) : Resp T R' b :=
  fun g1 g2 g3 => (h g1 g2 g3).imp id (hR _)

/-- The acknowledgement of a ping that came on this stream. -/
def Acked (CI : DataCodec I) (CA : DataCodec A) (T : TEnv) (s0 : Stream I A) (b : QBridge I A) (body : Bytes) : Prop :=
  ∃ w rest wire used left plain out, readOf b.got = w ++ rest ∧ Behind b.label b.skip w wire ∧ wire = used ++ left ∧
    Units T.B none b.max used plain ∧ Acks CI CA s0 plain out ∧ body = compressPayload T.B b.cmp out

omit [DecidableEq I] in
theorem Acked.mono {s0 : Stream I A} {b b' : QBridge I A} {body : Bytes} (h : Acked CI CA T s0 b body)
    (hg : readOf b.got <+: readOf b'.got) (hl : b'.label = b.label) (hs : b'.skip = b.skip) (hm : b'.max = b.max)
    (hc : b'.cmp = b.cmp) : Acked CI CA T s0 b' body := by
  obtain ⟨w, rest, wire, used, left, plain, out, h1, h2, h3, h4, h5, h6⟩ := h
  obtain ⟨more, hmore⟩ := hg
  exact ⟨w, rest ++ more, wire, used, left, plain, out, by rw [← hmore, h1, List.append_assoc], by rw [hl, hs]; exact h2, h3,
    by rw [hm]; exact h4, h5, by rw [hc]; exact h6⟩

theorem Reads.resp {s0 : Stream I A} {b : QBridge I A} {w : Bytes} {n : Nat} (h : Reads CI CA T s0 b w) (hl : QLife s0.phase n b)
    (h0 : s0.phase = .inAwaiting) (hR : ∀ x, Acked CI CA T s0 b x → R x) : Resp T R b := by
  intro g1 g2 g3
  have hlife := hl.alive g1 g2
  have none : (b.stream.phase ≠ .inSending) → b.stream.outputBuf = [] := by
    intro g
    unfold Life at hlife
    split at hlife
    · exact hlife.elim
    · rw [h0] at hlife; cases hlife.1
    · exact hlife.2.2.2.1
    · exact hlife.2.2.1
    · next hp => exact absurd hp g
    · exact hlife.1
  by_cases hp : b.stream.phase = .inSending
  · cases hv : b.inboundValidated with
    | false =>
      have := (h.shut hv).2.2.stage
      rw [hp] at this
      rcases this.2.2.2 with e | ⟨out, ⟨fr, rest, p, e1, e2, _⟩, _⟩
      · exact .inl e
      · have : fr = [] := by
          rcases List.append_eq_nil_iff.1 e1.symm with ⟨e, _⟩; exact e
        subst this
        cases e2
    | true =>
      obtain ⟨wire, used, plain, k1, k2, k3, k4⟩ := h.ajar hv
      have := k4.stage
      rw [hp] at this
      rcases this.2.2.2 with e | ⟨out, e1, e2⟩
      · exact .inl e
      · refine .inr (hR _ ?_)
        rw [h.pre, e2]
        obtain ⟨l, q1, q2⟩ := h.got
        exact ⟨w, [], wire, used, b.accum, plain, out, by rw [q1, readOf_bytes, q2, List.append_nil], k1, k2, k3, e1, by simp⟩
  · exact .inl (none hp)

theorem Resp.move {s0 : Stream I A} {b b' : QBridge I A} {n : Nat} (h : Resp T R b) (hl : QLife s0.phase n b)
    (hh : Heard CI CA T s0 b) (h0 : b.eager = false → s0.phase = .inAwaiting) (hm : BMove CI CA T b b')
    (hR : ∀ x, Acked CI CA T s0 b' x → R x) : Resp T R b' := by
  have dead : ∀ {c : QBridge I A} (r : LinkFail), Resp T R (c.drop r) := by
    intro c r g
    rw [(drop_rest c r).2.2.1] at g; cases g
  have same : b'.stream = b.stream → (b'.isFailed = false → b.isFailed = false) → b'.precompressed = b.precompressed → Resp T R b' := by
    intro e1 e2 e3 g1 g2 g3
    rw [e1, e3, hm.alike.cmp]
    exact h (e2 g1) (by rw [← e1]; exact g2) (by rw [← hm.alike.eager]; exact g3)
  have hl' := hl.move hm
  have hal := hm.alike
  cases hm with
  | flag q => exact same rfl id rfl
  | wrote k => exact same rfl id rfl
  | finish => exact same rfl id rfl
  | drop r => exact dead r
  | fail r =>
    intro g
    rw [(fail_rest b r).2.2.1] at g; cases g
  | timeout now r => exact dead r
  | cut now r => exact dead r
  | refuse bytes now r => exact dead r
  | late r _ => exact dead r
  | sendFin =>
    refine same ?_ ?_ ?_ <;> unfold observeSendFin
    · split <;> rfl
    · unfold isFailed; cases hp : b.phase <;> simp [hp]
    · split <;> rfl
  | recvFin =>
    refine same ?_ ?_ ?_ <;> unfold observeRecvFin
    · split <;> rfl
    · unfold isFailed; cases hp : b.phase <;> simp [hp]
    · split <;> rfl
  | gather now hf hs =>
    have hst := (gather_rest T b now).2.2.2.2
    have hpre := gather_pre T b now
    intro g1 g2 g3
    rw [hst] at g2 ⊢
    rcases (hl.alive hf hs).poll now with ⟨p1, _⟩ | ⟨p1, _⟩ | ⟨p1, p2, _⟩
    · rw [p1] at g2; cases g2
    · rw [p1, hpre, hal.cmp]
      exact h hf hs (by rw [← hal.eager]; exact g3)
    · left
      unfold Life at p1
      unfold Sent at p2
      split at p2
      · next hp => rw [hp] at p1; exact p1.2.2.2.1
      · next hp => rw [hp] at p1; exact p1.1
      · exact p2.elim
  | chunk bytes now hc =>
    cases hh with
    | reads w hw =>
      intro g1 g2 g3
      exact (hw.chunk bytes now hc).resp hl' (h0 (by rw [← hal.eager]; exact g3)) hR g1 g2 g3
    | ended l post _ hset _ _ =>
      obtain ⟨_, _, _, h4, hk, _⟩ := takeChunk_out (CI := CI) (CA := CA) (T := T) b bytes now
      have hph := takeChunk_phase (CI := CI) (CA := CA) (T := T) b bytes now
      intro g1 g2 g3
      rcases hk with hk | ⟨k1, _, _, k4⟩
      · rw [hk] at g2; cases g2
      · have hna : b.stream.phase ≠ .inAwaiting := by
          intro e
          unfold Settled at hset
          rw [e] at hset; exact hset
        rw [(k4 hna).2, h4, hal.cmp]
        exact h (by rw [← isFailed_congr hph]; exact g1) k1 (by rw [← hal.eager]; exact g3)
    | dead hf _ =>
      intro g
      rw [isFailed_congr (takeChunk_phase (CI := CI) (CA := CA) (T := T) b bytes now), hf] at g; cases g
    | late _ hf =>
      intro g
      rw [isFailed_congr (takeChunk_phase (CI := CI) (CA := CA) (T := T) b bytes now), hf] at g; cases g

theorem Resp.commit {p0 : Phase} {b b' : QBridge I A} {n : Nat} {ev : PayloadEvent I A} {rest : List (PayloadEvent I A)}
    (h : Resp T R b) (hl : QLife p0 n b)
    (hev : b.stream.endpointEvents = ev :: rest) (hc : b.Committed R ev rest b') :
    Resp T R b' := by
  rcases hc with rfl | ⟨hq, body, dl, hR, rfl⟩
  · exact h
  · intro g1 g2 g3
    have hlife := hl.alive g1 g2
    have ho : b.stream.outputBuf = [] := by
      unfold Life at hlife
      split at hlife
      · exact hlife.elim
      · rw [hlife.2.1] at hev; cases hev
      · exact hlife.2.2.2.1
      · exact hlife.2.2.1
      · exact hlife.2.2.1 (by rw [hev]; simp)
      · exact hlife.1
    refine .inr ?_
    show R (b.stream.outputBuf ++ [body]).flatten
    rw [ho]
    simpa using hR

end Verif.QBridge
