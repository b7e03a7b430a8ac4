import Verif.Proof.QuicLife
import Verif.Proof.CoordAuth
/-
What a bridge of the QUIC node hands to the endpoint, in terms of what was read from its QUIC stream.
-/
namespace Verif.QBridge
open Verif Spec
variable {I A : Type} [DecidableEq I] {CI : DataCodec I} {CA : DataCodec A} {T : TEnv}

/-- `ev` is what the bytes `w`, read on a stream that was opened as `s0`, bring. -/
def Brings (CI : DataCodec I) (CA : DataCodec A) (B : Backends) (label : Option Bytes) (skip : Bool) (max : Nat)
    (s0 : Stream I A) (w : Bytes) (ev : PayloadEvent I A) : Prop :=
  ∃ body plain, Behind label skip w body ∧ Units B none max body plain ∧ Delivers CI CA s0 plain ev

/-- A bridge that still reads: everything read so far is `w`. -/
structure Reads (CI : DataCodec I) (CA : DataCodec A) (T : TEnv) (s0 : Stream I A) (b : QBridge I A) (w : Bytes) : Prop where
  got : ∃ l : List Bytes, b.got = l.map .bytes ∧ l.flatten = w
  phase : b.phase = .active ∨ b.phase = .sendClosed
  shut : b.inboundValidated = false → (∃ l, l ≠ [] ∧ b.label = some l) ∧ b.accum = w ∧ Fed CI CA s0 [] b.stream
  ajar : b.inboundValidated = true → ∃ body used plain, Behind b.label b.skip w body ∧ body = used ++ b.accum ∧
    Units T.B none b.max used plain ∧ Fed CI CA s0 plain b.stream
  pre : b.precompressed = false

/-- What a bridge read so far, and what it has to hand over. -/
inductive Heard (CI : DataCodec I) (CA : DataCodec A) (T : TEnv) (s0 : Stream I A) (b : QBridge I A) : Prop
  | reads (w : Bytes) (h : Reads CI CA T s0 b w)
  | ended (l : List Bytes) (post : List Got) (hg : b.got = l.map .bytes ++ .fin :: post) (hs : Settled b.stream)
      (hp : b.phase ≠ .active ∧ b.phase ≠ .sendClosed ∧ b.phase ≠ .handshaking)
      (he : ∀ ev ∈ b.stream.endpointEvents, Brings CI CA T.B b.label b.skip b.max s0 l.flatten ev)
  | dead (hf : b.isFailed = true) (he : b.stream.endpointEvents = [])
  | late (h : b.late = true) (hf : b.isFailed = true)

omit [DecidableEq I] in
theorem isFailed_phase {b : QBridge I A} (h : b.isFailed = true) : ∃ r, b.phase = .failed r := by
  unfold isFailed at h
  split at h
  · next r hp => exact ⟨r, hp⟩
  · cases h

theorem Behind.append {label : Option Bytes} {skip : Bool} {w body : Bytes} (h : Behind label skip w body) (c : Bytes) :
    Behind label skip (w ++ c) (body ++ c) := by
  unfold Behind at h ⊢
  split at h
  · simp [h]
  · simp [h]
  · unfold Admits at h ⊢
    rcases h with ⟨h1, h2, h3⟩ | ⟨h1, h2, h3, h4⟩
    · exact .inl ⟨by rw [h1, List.append_assoc], h2, h3⟩
    · refine .inr ⟨h1, by rw [h2], by simp [h3], ?_⟩
      cases w with
      | nil => exact absurd rfl h3
      | cons x l => exact h4

theorem settled_timeout {s : Stream I A} (h : Settled s) (now : Nat) :
    Settled (s.handleTimeout now) ∧ ∀ ev ∈ (s.handleTimeout now).endpointEvents, ev ∈ s.endpointEvents := by
  unfold Stream.handleTimeout
  split
  · split
    · exact ⟨h, fun _ h => h⟩
    · exact ⟨h, fun _ h => h⟩
    · exact ⟨trivial, fun _ h => by simp [Stream.enterFailed] at h⟩
  · exact ⟨h, fun _ h => h⟩

/-- The end of the peer's stream brings no events. -/
theorem eof_effect (s : Stream I A) (now : Nat) :
    (s.handleData CI CA [] now).1 = s ∨ (s.handleData CI CA [] now).1.endpointEvents = [] := by
  unfold Stream.handleData
  split
  · exact .inl rfl
  · rw [if_pos rfl]; exact .inl rfl
  · split
    · next s' h =>
      refine .inl ?_
      unfold Stream.handleDataInner at h
      split at h
      · cases h
      · rw [if_pos rfl] at h
        split at h <;> first
          | (injection h with h; exact h.symm)
          | (cases h; done)
          | (split at h <;> first | (injection h with h; exact h.symm) | (cases h; done))
    · exact .inr rfl

/-! ### What a chunk does -/

theorem takeChunk_got (b : QBridge I A) (bytes : Bytes) (now : Nat) :
    (b.takeChunk CI CA T bytes now).1.got = b.got ++ [.bytes bytes] ∧
    (b.takeChunk CI CA T bytes now).1.late = (b.late || b.isFailed) := by
  unfold takeChunk takeUnits
  dsimp only
  split
  · exact ⟨rfl, rfl⟩
  · split
    · split <;> exact ⟨rfl, rfl⟩
    · exact ⟨rfl, rfl⟩
    · exact ⟨rfl, rfl⟩

theorem Reads.notFailed {s0 : Stream I A} {b : QBridge I A} {w : Bytes} (h : Reads CI CA T s0 b w) : b.isFailed = false := by
  unfold isFailed
  rcases h.phase with e | e <;> rw [e]

theorem takeUnits_reads {s0 : Stream I A} {b : QBridge I A} {w body used plain : Bytes} {now : Nat}
    (hg : ∃ l : List Bytes, b.got = l.map .bytes ∧ l.flatten = w) (hp : b.phase = .active ∨ b.phase = .sendClosed)
    (hv : b.inboundValidated = true) (hb : Behind b.label b.skip w body) (he : body = used ++ b.accum)
    (hu : Units T.B none b.max used plain) (hf : Fed CI CA s0 plain b.stream)
    (hpre : b.precompressed = false)
    (hc : (b.takeUnits CI CA T now).2 = false) : Reads CI CA T s0 (b.takeUnits CI CA T now).1 w := by
  unfold takeUnits at hc ⊢
  dsimp only at hc ⊢
  rcases hx : Bridge.drainUnits CI CA T none b.max now (b.accum.length + 1) b.stream b.accum with ⟨s', left, d⟩
  rw [hx] at hc
  dsimp only at hc ⊢
  have hd : d = .all := by simpa using hc
  subst hd
  obtain ⟨u, D', h1, h2, h3⟩ := Bridge.drainUnits_fed _ hx hu hf
  refine ⟨hg, hp, fun h => ?_, fun _ => ⟨body, used ++ u, D', hb, ?_, h2, h3⟩, hpre⟩
  · dsimp only at h; rw [hv] at h; cases h
  · rw [he, h1, List.append_assoc]

theorem Reads.chunk {s0 : Stream I A} {b : QBridge I A} {w : Bytes} (h : Reads CI CA T s0 b w) (bytes : Bytes) (now : Nat)
    (hc : (b.takeChunk CI CA T bytes now).2 = false) : Reads CI CA T s0 (b.takeChunk CI CA T bytes now).1 (w ++ bytes) := by
  have hg : ∃ l : List Bytes, b.got ++ [Got.bytes bytes] = l.map .bytes ∧ l.flatten = w ++ bytes := by
    obtain ⟨l, h1, h2⟩ := h.got
    exact ⟨l ++ [bytes], by simp [h1], by simp [h2]⟩
  unfold takeChunk at hc ⊢
  dsimp only at hc ⊢
  split at hc
  · next hv =>
    rw [if_pos hv]
    obtain ⟨body, used, plain, h1, h2, h3, h4⟩ := h.ajar hv
    exact takeUnits_reads hg h.phase hv (Behind.append h1 bytes) (by rw [h2, List.append_assoc]) h3 h4 h.pre hc
  · next hv =>
    rw [if_neg hv]
    obtain ⟨⟨l, hl, hlab⟩, ha, hf⟩ := h.shut (Bool.eq_false_iff.2 hv)
    split at hc
    · next n hn =>
      have hb : Behind b.label b.skip (w ++ bytes) ((w ++ bytes).drop n) := by
        rw [ha] at hn
        have := (classify_admits _ _ _ _).1 ⟨n, hn, rfl⟩
        rw [hlab] at this ⊢
        unfold Behind
        split
        · next h => cases h
        · next h => exact absurd (Option.some.inj h) hl
        · next h => cases h; exact this
      rw [ha] at hc ⊢
      by_cases ho : (!b.eager && !b.outboundWritten) = true
      · rw [if_pos ho] at hc ⊢
        exact takeUnits_reads (b := { b with
          got := b.got ++ [.bytes bytes], late := b.late || b.isFailed, accum := (w ++ bytes).drop n
          inboundValidated := true, pendingOut := _, outboundWritten := true })
          hg h.phase rfl hb (List.nil_append _).symm .nil hf h.pre hc
      · rw [if_neg ho] at hc ⊢
        exact takeUnits_reads (b := { b with
          got := b.got ++ [.bytes bytes], late := b.late || b.isFailed, accum := (w ++ bytes).drop n
          inboundValidated := true })
          hg h.phase rfl hb (List.nil_append _).symm .nil hf h.pre hc
    · exact ⟨hg, h.phase, fun _ => ⟨⟨l, hl, hlab⟩, by dsimp only; rw [ha], hf⟩, fun h => absurd h hv, h.pre⟩
    · cases hc

/-- A chunk adds no events to a stream that has settled. -/
theorem takeChunk_settled (b : QBridge I A) (bytes : Bytes) (now : Nat) (h : Settled b.stream) :
    Settled (b.takeChunk CI CA T bytes now).1.stream ∧
      ∀ ev ∈ (b.takeChunk CI CA T bytes now).1.stream.endpointEvents, ev ∈ b.stream.endpointEvents := by
  rcases takeChunk_stream (CI := CI) (CA := CA) (T := T) b bytes now with e | ⟨fuel, buf, e, _⟩
  · rw [e]; exact ⟨h, fun _ h => h⟩
  · rw [e]; exact Bridge.drainUnits_settled fuel h

/-! ### Failing -/

omit [DecidableEq I] in
theorem fail_rest (b : QBridge I A) (r : LinkFail) :
    (b.fail r).got = b.got ∧ (b.fail r).late = b.late ∧ (b.fail r).isFailed = true ∧
    ((b.fail r).stream = b.stream ∨ b.isFailed = false ∧ (b.fail r).stream = b.stream.discardPending) ∧
    (b.phase = .active ∨ b.phase = .sendClosed → (b.fail r).stream.endpointEvents = []) ∧
    (b.isFailed = true → (b.fail r).stream = b.stream) ∧
    (b.phase ≠ .active ∧ b.phase ≠ .sendClosed ∧ b.phase ≠ .handshaking → (b.fail r).stream = b.stream) := by
  unfold fail
  cases hf : b.isFailed with
  | true =>
    obtain ⟨r', hp⟩ := isFailed_phase hf
    refine ⟨rfl, rfl, hf, .inl rfl, fun h => ?_, fun _ => rfl, fun _ => rfl⟩
    rw [hp] at h
    rcases h with h | h <;> cases h
  | false =>
    rw [if_neg (by simp)]
    refine ⟨rfl, rfl, rfl, ?_, fun h => ?_, fun h => (by cases h), fun h => ?_⟩
    · dsimp only
      split
      · exact .inl rfl
      · exact .inr ⟨rfl, rfl⟩
    · dsimp only
      rw [if_neg (by rcases h with h | h <;> rw [h] <;> simp)]
      rfl
    · have : b.phase = .recvClosed ∨ b.phase = .bothClosed := by
        cases hp : b.phase with
        | active => exact absurd hp h.1
        | sendClosed => exact absurd hp h.2.1
        | handshaking => exact absurd hp h.2.2
        | recvClosed => exact .inl rfl
        | bothClosed => exact .inr rfl
        | failed r => unfold isFailed at hf; rw [hp] at hf; cases hf
      dsimp only
      rw [if_pos this]

omit [DecidableEq I] in
theorem drop_rest (b : QBridge I A) (r : LinkFail) :
    (b.drop r).got = b.got ∧ (b.drop r).late = b.late ∧ (b.drop r).isFailed = true ∧
    ((b.drop r).stream = b.stream ∨ b.isFailed = false ∧ (b.drop r).stream = b.stream.discardPending) ∧
    (b.phase = .active ∨ b.phase = .sendClosed → (b.drop r).stream.endpointEvents = []) ∧
    (b.isFailed = true → (b.drop r).stream = b.stream) ∧
    (b.phase ≠ .active ∧ b.phase ≠ .sendClosed ∧ b.phase ≠ .handshaking → (b.drop r).stream = b.stream) :=
  fail_rest { b with pendingOut := [] } r

theorem Heard.alike {s0 : Stream I A} {b b' : QBridge I A} (ha : Alike b b') (hg : b'.got = b.got) (hf : b'.isFailed = true)
    (hl : b.late = true → b'.late = true)
    (h1 : b.phase = .active ∨ b.phase = .sendClosed → b'.stream.endpointEvents = [])
    (h2 : Settled b.stream → b.phase ≠ .active ∧ b.phase ≠ .sendClosed ∧ b.phase ≠ .handshaking → Settled b'.stream ∧
      ∀ ev ∈ b'.stream.endpointEvents, ev ∈ b.stream.endpointEvents)
    (h3 : b.isFailed = true → b.stream.endpointEvents = [] → b'.stream.endpointEvents = [])
    (h : Heard CI CA T s0 b) : Heard CI CA T s0 b' := by
  cases h with
  | reads w h => exact .dead hf (h1 h.phase)
  | ended l post g1 g2 g3 g4 =>
    obtain ⟨k1, k2⟩ := h2 g2 g3
    obtain ⟨r, hr⟩ := isFailed_phase hf
    refine .ended l post (by rw [hg]; exact g1) k1 (by rw [hr]; simp) (fun ev hev => ?_)
    rw [ha.label, ha.skip, ha.max]
    exact g4 ev (k2 ev hev)
  | dead g1 g2 => exact .dead hf (h3 g1 g2)
  | late g _ => exact .late (hl g) hf

theorem Heard.drop {s0 : Stream I A} {b : QBridge I A} (h : Heard CI CA T s0 b) (r : LinkFail) : Heard CI CA T s0 (b.drop r) := by
  obtain ⟨h1, h2, h3, h4, h5, h6, h7⟩ := drop_rest b r
  refine h.alike (drop_alike b r) h1 h3 (fun g => by rw [h2]; exact g) h5 (fun g1 g2 => ?_) (fun g1 g2 => by rw [h6 g1]; exact g2)
  rw [h7 g2]; exact ⟨g1, fun _ h => h⟩

theorem Heard.fail {s0 : Stream I A} {b : QBridge I A} (h : Heard CI CA T s0 b) (r : LinkFail) : Heard CI CA T s0 (b.fail r) := by
  obtain ⟨h1, h2, h3, h4, h5, h6, h7⟩ := fail_rest b r
  refine h.alike (fail_alike b r) h1 h3 (fun g => by rw [h2]; exact g) h5 (fun g1 g2 => ?_) (fun g1 g2 => by rw [h6 g1]; exact g2)
  rw [h7 g2]; exact ⟨g1, fun _ h => h⟩

/-- A stream that failed has no events. -/
theorem Fed.failed_events {s0 s : Stream I A} {D : Bytes} (h : Fed CI CA s0 D s) (hf : s.isFailed = true) :
    s.endpointEvents = [] := by
  have hst := h.stage
  unfold Stream.isFailed at hf
  split at hf
  · next e hp => rw [hp] at hst; exact hst
  · cases hf

theorem Reads.fed {s0 : Stream I A} {b : QBridge I A} {w : Bytes} (h : Reads CI CA T s0 b w) :
    ∃ plain, Fed CI CA s0 plain b.stream := by
  cases hv : b.inboundValidated with
  | false => exact ⟨_, (h.shut hv).2.2⟩
  | true => obtain ⟨_, _, p, _, _, _, h4⟩ := h.ajar hv; exact ⟨p, h4⟩

/-- A change that leaves what was read alone. -/
theorem Heard.sent {s0 : Stream I A} {b b' : QBridge I A} (h : Heard CI CA T s0 b) (ha : Alike b b') (hg : b'.got = b.got)
    (hl : b'.late = b.late) (hp : b'.phase = b.phase) (hacc : b'.accum = b.accum)
    (hv : b'.inboundValidated = b.inboundValidated) (hpre : b'.precompressed = b.precompressed)
    (hf : ∀ D, Fed CI CA s0 D b.stream → Fed CI CA s0 D b'.stream)
    (hs : Settled b.stream → Settled b'.stream)
    (he : ∀ ev ∈ b'.stream.endpointEvents, ev ∈ b.stream.endpointEvents) : Heard CI CA T s0 b' := by
  cases h with
  | reads w h =>
    refine .reads w ⟨by rw [hg]; exact h.got, by rw [hp]; exact h.phase, ?_, ?_, by rw [hpre]; exact h.pre⟩
    · rw [hv, ha.label, hacc]
      exact fun g => ⟨(h.shut g).1, (h.shut g).2.1, hf _ (h.shut g).2.2⟩
    · rw [hv, ha.label, ha.skip, ha.max, hacc]
      intro g
      obtain ⟨body, used, plain, k1, k2, k3, k4⟩ := h.ajar g
      exact ⟨body, used, plain, k1, k2, k3, hf _ k4⟩
  | ended l post g1 g2 g3 g4 =>
    refine .ended l post (by rw [hg]; exact g1) (hs g2) (by rw [hp]; exact g3) (fun ev hev => ?_)
    rw [ha.label, ha.skip, ha.max]
    exact g4 ev (he ev hev)
  | dead g1 g2 =>
    refine .dead (by unfold isFailed at g1 ⊢; rw [hp]; exact g1) ?_
    cases hc : b'.stream.endpointEvents with
    | nil => rfl
    | cons ev l =>
      have := he ev (by rw [hc]; simp)
      rw [g2] at this; cases this
  | late g g' => exact .late (by rw [hl]; exact g) (by unfold isFailed at g' ⊢; rw [hp]; exact g')

omit [DecidableEq I] in
theorem gather_rest (T : TEnv) (b : QBridge I A) (now : Nat) :
    (b.gather T now).got = b.got ∧ (b.gather T now).late = b.late ∧ (b.gather T now).accum = b.accum ∧
    (b.gather T now).inboundValidated = b.inboundValidated ∧ (b.gather T now).stream = (b.stream.pollTransmit now).1 := by
  have h : b.putLabel.got = b.got ∧ b.putLabel.late = b.late ∧ b.putLabel.accum = b.accum ∧
      b.putLabel.inboundValidated = b.inboundValidated ∧ b.putLabel.stream = b.stream := by
    unfold putLabel; split <;> exact ⟨rfl, rfl, rfl, rfl, rfl⟩
  obtain ⟨h1, h2, h3, h4, h5⟩ := h
  unfold gather
  dsimp only
  rw [h5]
  split <;> next hx => exact ⟨h1, h2, h3, h4, by rw [hx]⟩

omit [DecidableEq I] in
theorem gather_pre (T : TEnv) (b : QBridge I A) (now : Nat) : (b.gather T now).precompressed = b.precompressed := by
  have h : b.putLabel.precompressed = b.precompressed := by unfold putLabel; split <;> rfl
  unfold gather
  dsimp only
  split <;> exact h

theorem Heard.move {s0 : Stream I A} {b b' : QBridge I A} (h : Heard CI CA T s0 b) (hm : BMove CI CA T b b') :
    Heard CI CA T s0 b' := by
  have hal := hm.alike
  cases hm with
  | flag q => exact h.sent hal rfl rfl rfl rfl rfl rfl (fun _ h => h) id (fun _ h => h)
  | wrote n => exact h.sent hal rfl rfl rfl rfl rfl rfl (fun _ h => h) id (fun _ h => h)
  | finish => exact h.sent hal rfl rfl rfl rfl rfl rfl (fun _ h => h) id (fun _ h => h)
  | drop r => exact h.drop r
  | fail r => exact h.fail r
  | gather now hf hs =>
    obtain ⟨g1, g2, g3, g4, g5⟩ := gather_rest T b now
    refine h.sent hal g1 g2 (gather_phase T b now) g3 g4 (gather_pre T b now) (fun D k => ?_) (fun k => ?_) (fun ev k => ?_)
    · rw [g5]; exact k.poll now
    · rw [g5]; exact (k.poll now).1
    · rw [g5] at k; exact poll_events _ now ev k
  | timeout now r =>
    obtain ⟨h1, h2, h3, h4, h5, h6, h7⟩ := drop_rest { b with stream := b.stream.handleTimeout now } r
    refine h.alike hal h1 h3 (fun g => by rw [h2]; exact g) h5 (fun g1 g2 => ?_) (fun g1 g2 => ?_)
    · rw [h7 g2]; exact settled_timeout g1 now
    · rw [h6 g1]
      show (b.stream.handleTimeout now).endpointEvents = []
      unfold Stream.handleTimeout
      split
      · split
        · exact g2
        · exact g2
        · rfl
      · exact g2
  | sendFin =>
    cases h with
    | reads w h =>
      have hp : b.observeSendFin.phase = .active ∨ b.observeSendFin.phase = .sendClosed := by
        unfold observeSendFin
        rcases h.phase with e | e <;> rw [e]
        · exact .inr rfl
        · exact .inr e
      unfold observeSendFin at hp ⊢
      split at hp
      · exact .reads w ⟨h.got, hp, h.shut, h.ajar, h.pre⟩
      · next e => rcases hp with hp | hp <;> cases hp
      · exact .reads w h
    | ended l post g1 g2 g3 g4 =>
      unfold observeSendFin
      split
      · next e => exact absurd e g3.1
      · exact .ended l post g1 g2 (by simp) g4
      · exact .ended l post g1 g2 g3 g4
    | dead g1 g2 =>
      obtain ⟨r, hr⟩ := isFailed_phase g1
      unfold observeSendFin; rw [hr]; exact .dead g1 g2
    | late g g' =>
      obtain ⟨r, hr⟩ := isFailed_phase g'
      unfold observeSendFin; rw [hr]; exact .late g g'
  | chunk bytes now hc =>
    obtain ⟨k1, k2⟩ := takeChunk_got (CI := CI) (CA := CA) (T := T) b bytes now
    cases h with
    | reads w h => exact .reads _ (h.chunk bytes now hc)
    | ended l post g1 g2 g3 g4 =>
      obtain ⟨j1, j2⟩ := takeChunk_settled (CI := CI) (CA := CA) (T := T) b bytes now g2
      refine .ended l (post ++ [.bytes bytes]) (by rw [k1, g1]; simp) j1 (by rw [takeChunk_phase]; exact g3) (fun ev hev => ?_)
      rw [hal.label, hal.skip, hal.max]
      exact g4 ev (j2 ev hev)
    | dead g1 g2 => exact .late (by rw [k2, g1, Bool.or_true]) (by unfold isFailed at g1 ⊢; rw [takeChunk_phase]; exact g1)
    | late g g1 => exact .late (by rw [k2, g, Bool.true_or]) (by unfold isFailed at g1 ⊢; rw [takeChunk_phase]; exact g1)
  | refuse bytes now r =>
    obtain ⟨k1, k2⟩ := takeChunk_got (CI := CI) (CA := CA) (T := T) b bytes now
    obtain ⟨h1, h2, h3, h4, h5, h6, h7⟩ := drop_rest (b.takeChunk CI CA T bytes now).1 r
    rw [takeChunk_phase] at h5 h7
    cases h with
    | reads w h => exact .dead h3 (h5 h.phase)
    | ended l post g1 g2 g3 g4 =>
      obtain ⟨j1, j2⟩ := takeChunk_settled (CI := CI) (CA := CA) (T := T) b bytes now g2
      obtain ⟨r', hr⟩ := isFailed_phase h3
      refine .ended l (post ++ [.bytes bytes]) (by rw [h1, k1, g1]; simp) (by rw [h7 g3]; exact j1) (by rw [hr]; simp) (fun ev hev => ?_)
      rw [hal.label, hal.skip, hal.max]
      rw [h7 g3] at hev
      exact g4 ev (j2 ev hev)
    | dead g1 g2 => exact .late (by rw [h2, k2, g1, Bool.or_true]) h3
    | late g _ => exact .late (by rw [h2, k2, g, Bool.true_or]) h3
  | cut now r =>
    obtain ⟨h1, h2, h3, h4, h5, h6, h7⟩ := drop_rest { b with stream := (b.stream.handleData CI CA [] now).1 } r
    have hacc := h.alike hal h1 h3 (fun g => by rw [h2]; exact g) h5
      (fun g1 g2 => by rw [h7 g2]; exact g1.data [] now)
    refine hacc (fun g1 g2 => ?_)
    rw [h6 g1]
    show (b.stream.handleData CI CA [] now).1.endpointEvents = []
    rcases eof_effect (CI := CI) (CA := CA) b.stream now with e | e
    · rw [e]; exact g2
    · exact e
  | recvFin now hs hd ha =>
    cases h with
    | reads w h =>
      obtain ⟨l, g1, g2⟩ := h.got
      obtain ⟨_, hset, hin⟩ := eof_settled hd
      have hev : ∀ ev ∈ b.stream.endpointEvents, Brings CI CA T.B b.label b.skip b.max s0 l.flatten ev := by
        intro ev hev
        cases hv : b.inboundValidated with
        | false =>
          exact absurd rfl (Bridge.fed_delivers (h.shut hv).2.2 hset hin ev hev).ne_nil
        | true =>
          obtain ⟨body, used, plain, k1, k2, k3, k4⟩ := h.ajar hv
          rw [ha, List.append_nil] at k2
          subst k2
          exact ⟨body, plain, by rw [g2]; exact k1, k3, Bridge.fed_delivers k4 hset hin ev hev⟩
      unfold observeRecvFin
      rcases h.phase with e | e <;> rw [e]
      · exact .ended l [] (by dsimp only; rw [g1]) hset (by simp) hev
      · exact .ended l [] (by dsimp only; rw [g1]) hset (by simp) hev
    | ended l post g1 g2 g3 g4 =>
      unfold observeRecvFin
      split
      · next e => exact absurd e g3.1
      · next e => exact absurd e g3.2.1
      · exact .ended l post g1 g2 g3 g4
    | dead g1 g2 =>
      obtain ⟨r, hr⟩ := isFailed_phase g1
      unfold observeRecvFin; rw [hr]; exact .dead g1 g2
    | late g g' =>
      obtain ⟨r, hr⟩ := isFailed_phase g'
      unfold observeRecvFin; rw [hr]; exact .late g g'
  | late r hs =>
    refine Heard.drop ?_ r
    cases h with
    | reads w h =>
      obtain ⟨l, g1, g2⟩ := h.got
      obtain ⟨plain, hf⟩ := h.fed
      have hnil := Fed.failed_events hf hs
      have hset : Settled b.stream := by
        unfold Stream.isFailed at hs
        unfold Settled
        split at hs
        · next e hp => rw [hp]; trivial
        · cases hs
      unfold observeRecvFin
      rcases h.phase with e | e <;> rw [e]
      · exact .ended l [] (by dsimp only; rw [g1]) hset (by simp) (by dsimp only; rw [hnil]; simp)
      · exact .ended l [] (by dsimp only; rw [g1]) hset (by simp) (by dsimp only; rw [hnil]; simp)
    | ended l post g1 g2 g3 g4 =>
      unfold observeRecvFin
      split
      · next e => exact absurd e g3.1
      · next e => exact absurd e g3.2.1
      · exact .ended l post g1 g2 g3 g4
    | dead g1 g2 =>
      obtain ⟨r, hr⟩ := isFailed_phase g1
      unfold observeRecvFin; rw [hr]; exact .dead g1 g2
    | late g g' =>
      obtain ⟨r, hr⟩ := isFailed_phase g'
      unfold observeRecvFin; rw [hr]; exact .late g g'

end Verif.QBridge
