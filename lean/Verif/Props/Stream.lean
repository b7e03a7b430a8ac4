import Verif.Proof.StreamRun
import Verif.Model.DataCodecs
/-
Properties C24-C28: the reliable stream state machine and its frame detector.
Specification: `Verif.Spec.Stream` (outcomes), `Verif.Spec.Framing` (the frame grammar).
-/
namespace Verif.Props
open Verif Verif.Spec

section
variable {I A : Type} [DecidableEq I] {CI : DataCodec I} {CA : DataCodec A}

/-! ### C28 the incremental frame detector -/

/-- C28. A frame of extent `n` is declared complete exactly when the buffer starts with a frame of
`n` bytes and `n` is within the limit. -/
theorem C28_complete_iff (maxFrame : Nat) (buf : Bytes) (t : UInt8) (n : Nat) :
    probeFrame maxFrame buf = .ok (some (t, n)) ↔
      ∃ body frame rest, buf = frame ++ rest ∧ Frame t body frame ∧ frame.length = n ∧ n ≤ maxFrame :=
  probeFrame_some_iff maxFrame buf t n

/-- C28. On the tags the decoder knows, the detector and the decoder agree: one declares a frame of
`n` bytes complete exactly when the other decodes one of `n` bytes, within the limit. -/
theorem C28_agrees_with_decoder (maxFrame : Nat) (buf : Bytes) (tag : MessageTag) (n : Nat) :
    probeFrame maxFrame buf = .ok (some (tag.toByte, n)) ↔
      n ≤ maxFrame ∧ ∃ body, decodePlainFrame buf = .ok (tag, body, n) := by
  rw [probeFrame_some_iff]
  constructor
  · rintro ⟨body, frame, rest, h1, h2, h3, h4⟩
    exact ⟨h4, body, (decodePlainFrame_ok_iff _ _ _ _).2 ⟨frame, rest, h1, h2, h3⟩⟩
  · rintro ⟨h4, body, h⟩
    obtain ⟨frame, rest, h1, h2, h3⟩ := (decodePlainFrame_ok_iff _ _ _ _).1 h
    exact ⟨body, frame, rest, h1, h2, h3, h4⟩

/-- C28. An error is final and justified: whatever arrives later, the decoder cannot produce a frame
within the limit. -/
theorem C28_error_sound (maxFrame : Nat) (buf : Bytes) (h : probeFrame maxFrame buf = .error ()) (ext : Bytes) :
    probeFrame maxFrame (buf ++ ext) = .error () ∧
      ∀ tag body n, decodePlainFrame (buf ++ ext) = .ok (tag, body, n) → maxFrame < n := by
  have he := probeFrame_error maxFrame buf ext h
  refine ⟨he, fun tag body n hd => ?_⟩
  apply Nat.lt_of_not_le
  intro hn
  have := (C28_agrees_with_decoder maxFrame (buf ++ ext) tag n).2 ⟨hn, body, hd⟩
  rw [he] at this
  cases this

/-- C28. A declared frame is final: later bytes do not change its extent. -/
theorem C28_complete_stable (maxFrame : Nat) (buf ext : Bytes) (r : UInt8 × Nat)
    (h : probeFrame maxFrame buf = .ok (some r)) : probeFrame maxFrame (buf ++ ext) = .ok (some r) :=
  probeFrame_some_append maxFrame buf ext h

/-- C28. An error is declared exactly on a malformed length or a length over the limit, from the
header alone. -/
theorem C28_error_iff (maxFrame : Nat) (buf : Bytes) :
    probeFrame maxFrame buf = .error () ↔
      ∃ t tail, buf = t :: tail ∧ (decodeVarint tail = .error .varintOverflow ∨
        ∃ v n, decodeVarint tail = .ok (v, n) ∧ maxFrame < 1 + n + v) := by
  cases buf with
  | nil => simp [probeFrame]
  | cons t tail =>
    rw [probeFrame_cons]
    simp only [List.cons.injEq]
    cases hd : decodeVarint tail with
    | error e =>
      rcases decodeVarint_err _ _ hd with rfl | rfl
      · simp only [true_iff]
        exact ⟨t, tail, ⟨rfl, rfl⟩, .inl hd⟩
      · simp only [reduceCtorEq, false_iff]
        rintro ⟨t', tail', ⟨rfl, rfl⟩, h | ⟨v, n, h, _⟩⟩ <;> rw [hd] at h <;> cases h
    | ok r =>
      obtain ⟨v, n⟩ := r
      simp only [verdict]
      constructor
      · intro h
        split at h
        · exact ⟨t, tail, ⟨rfl, rfl⟩, .inr ⟨v, n, hd, by omega⟩⟩
        · split at h <;> cases h
      · rintro ⟨t', tail', ⟨rfl, rfl⟩, h | ⟨v', n', h, hlt⟩⟩
        · rw [hd] at h; cases h
        · rw [hd] at h
          injection h with h
          injection h with h1 h2
          subst h1 h2
          rw [if_pos hlt]

example : probeFrame 10 [9, 3, 1, 2, 3, 77] = .ok (some (9, 5)) := by decide
example : probeFrame 4 [9, 3] = .error () := by decide
example : probeFrame 10 [9, 3, 1] = .ok none := by decide

/-! ### C27 bounded memory -/

/-- C27. In every history the bytes buffered from the peer stay within the configured maximum. -/
theorem C27_buffer_bounded (id : Nat) (peer : A) (me : I) (maxFrame dl : Nat)
    (k : Option (OutKind × Bytes)) (ops : List StreamOp) :
    (StreamRun.run CI CA { s := Stream.fresh id peer me maxFrame dl k } ops).s.inputBuf.length ≤ maxFrame :=
  ((RunInv.fresh id peer me maxFrame dl k).run ops).buf

/-- C27. As soon as the header of an oversized frame has arrived the exchange fails, whether or not any
of the body has. -/
theorem C27_oversized_header_refused (s : Stream I A) (data : Bytes) (now : Nat) (t : UInt8)
    (len rest : Bytes) (n : Nat) (hl : LenField len n) (hbig : s.maxFrame < 1 + len.length + n)
    (hin : s.inputBuf ++ data = t :: (len ++ rest)) (hne : data ≠ [])
    (hlive : ∀ e, s.phase ≠ .failed e) :
    ∃ e, (s.handleData CI CA data now).1 = s.enterFailed e ∧ (s.handleData CI CA data now).2 = some e := by
  have hp : probeFrame s.maxFrame (s.inputBuf ++ data) = .error () := by
    rw [hin, C28_error_iff]
    exact ⟨t, len ++ rest, rfl, .inr ⟨n, len.length, decodeVarint_of_lenField hl rest, by omega⟩⟩
  have hi : ∃ e, Stream.handleDataInner CI CA s data now = .error e := by
    unfold Stream.handleDataInner
    split
    · exact ⟨_, rfl⟩
    · split
      · exact ⟨_, rfl⟩
      · unfold Stream.tryDecodeFrame
        dsimp only
        rw [hp]
        exact ⟨_, rfl⟩
  obtain ⟨e, hi⟩ := hi
  unfold Stream.handleData
  split
  · rename_i e' h; exact absurd h (hlive e')
  · rw [if_neg hne]; exact ⟨.decode, rfl, rfl⟩
  · rw [hi]; exact ⟨e, rfl, rfl⟩

example : LenField [0xe8, 0x07] 1000 ∧ (10 : Nat) < 1 + [0xe8, 0x07].length + 1000 := by
  refine ⟨⟨?_, by decide, by decide⟩, by decide⟩
  exact ((decodeVarint_ok_iff [0xe8, 0x07] 1000 2).1 (by decide)).elim
    (fun pre h => h.elim (fun rest h => by
      obtain ⟨h1, h2, h3, _⟩ := h
      have : rest = [] := by
        have := congrArg List.length h1
        simp only [List.length_append, List.length_cons, List.length_nil] at this
        exact List.length_eq_zero_iff.1 (by omega)
      subst this
      rw [List.append_nil] at h1
      rw [h1]
      exact h2))

/-! ### C26 the deadline -/

/-- C26. From the deadline on, any input, transmit poll or timer call on an exchange that has not ended
ends it with a timeout: nothing is sent, nothing is queued for delivery, and the only report is the
timeout. This holds in every reachable state (indeed in every state). -/
theorem C26_deadline (s : Stream I A) (d now : Nat) (hd : s.deadline = some d) (hn : d ≤ now)
    (hlive : ¬ Ended s) (data : Bytes) :
    (s.handleData CI CA data now).1 = s.enterFailed .timeout ∧
    s.pollTransmit now = (s.enterFailed .timeout, none) ∧
    s.handleTimeout now = s.enterFailed .timeout := by
  have hx : s.expired now = true := by unfold Stream.expired; rw [hd]; simpa using hn
  have h1 : s.phase ≠ .done := fun h => hlive (.inl h)
  have h2 : ∀ e, s.phase ≠ .failed e := fun e h => hlive (.inr ⟨e, h⟩)
  refine ⟨?_, ?_, ?_⟩
  · unfold Stream.handleData
    split
    · rename_i e h; exact absurd h (h2 e)
    · rename_i h; exact absurd h h1
    · unfold Stream.handleDataInner
      rw [hx]
      rfl
  · unfold Stream.pollTransmit
    split
    · rename_i h; exact absurd h h1
    · rename_i e h; exact absurd h (h2 e)
    · rw [hx]
      rfl
  · unfold Stream.handleTimeout
    rw [hx, if_pos rfl]
    split
    · rename_i h; exact absurd h h1
    · rename_i e h; exact absurd h (h2 e)
    · rfl

/-- C26. What a timed-out exchange shows. -/
theorem C26_timed_out_shows (s : Stream I A) :
    (s.enterFailed .timeout).phase = .failed .timeout ∧
    (s.enterFailed .timeout).endpointEvents = [] ∧ (s.enterFailed .timeout).outputBuf = [] ∧
    (s.enterFailed .timeout).streamEvents = [.failed .timeout] ∧
    (s.enterFailed .timeout).inputBuf = [] :=
  ⟨rfl, rfl, rfl, rfl, rfl⟩

/-- C26. The timer asked for is the deadline as long as the exchange has not ended. -/
theorem C26_timer (s : Stream I A) (h : ¬ Ended s) : s.pollTimeout = s.deadline := by
  unfold Stream.pollTimeout
  split
  · rename_i hp; exact absurd (.inl hp) h
  · rename_i e hp; exact absurd (.inr ⟨e, hp⟩) h
  · rfl

/-- C26. An exchange never times out early: it fails with a timeout in one call only if that call came
at or after its deadline. -/
theorem C26_not_early (s : Stream I A) (op : StreamOp) (hlive : ¬ Ended s)
    (h : (StreamRun.step CI CA { s := s } op).s.phase = .failed .timeout) :
    ∃ d now, s.deadline = some d ∧ d ≤ now ∧
      ((∃ b, op = .data b now) ∨ op = .pollTransmit now ∨ op = .handleTimeout now) :=
  timeout_not_early s op hlive h

/-! ### C25 one end -/

/-- C25. In every history, the lifecycle reports made so far (delivered or queued) are: none while the
exchange is running, exactly one `closed` once it completed, and exactly one failure once it failed -
preceded by `closed` only if it had completed before. -/
theorem C25_reports (id : Nat) (peer : A) (me : I) (maxFrame dl : Nat)
    (k : Option (OutKind × Bytes)) (ops : List StreamOp) (r : StreamRun I A)
    (hr : r = StreamRun.run CI CA { s := Stream.fresh id peer me maxFrame dl k } ops) :
    (¬ Ended r.s ∧ r.events ++ r.s.streamEvents = []) ∨
    (r.s.phase = .done ∧ r.events ++ r.s.streamEvents = [.closed]) ∨
    (∃ e, r.s.phase = .failed e ∧
      (r.events ++ r.s.streamEvents = [.failed e] ∨ r.events ++ r.s.streamEvents = [.closed, .failed e])) := by
  subst hr
  have h := ((RunInv.fresh id peer me maxFrame dl k).run (CI := CI) (CA := CA) ops).reports
  generalize StreamRun.run CI CA { s := Stream.fresh id peer me maxFrame dl k } ops = r at h ⊢
  simp only [StreamRun.reports] at h
  cases hp : r.s.phase with
  | done => rw [hp] at h; exact .inr (.inl ⟨rfl, h⟩)
  | failed e => rw [hp] at h; exact .inr (.inr ⟨e, rfl, h.2⟩)
  | _ =>
    all_goals
      rw [hp] at h
      refine .inl ⟨?_, h⟩
      rintro (h' | ⟨e, h'⟩) <;> rw [hp] at h' <;> cases h'

/-- C25. If the peer sends nothing more once the exchange has completed, exactly one lifecycle report
is made. -/
theorem C25_exactly_one_report (id : Nat) (peer : A) (me : I) (maxFrame dl : Nat)
    (k : Option (OutKind × Bytes)) (ops : List StreamOp) (r : StreamRun I A)
    (hr : r = StreamRun.run CI CA { s := Stream.fresh id peer me maxFrame dl k } ops)
    (hq : PeerQuietAfterDone CI CA { s := Stream.fresh id peer me maxFrame dl k } ops) (hend : Ended r.s) :
    (r.events ++ r.s.streamEvents).length = 1 := by
  subst hr
  have h := run_quiet ops (RunInv.fresh id peer me maxFrame dl k) hq
    (by intro e he; cases k <;> simp [Stream.fresh] at he)
  have h0 := C25_reports (CI := CI) (CA := CA) id peer me maxFrame dl k ops _ rfl
  rcases h0 with ⟨h0, _⟩ | ⟨_, h0⟩ | ⟨e, he, _⟩
  · exact absurd hend h0
  · rw [h0]; rfl
  · have := h e he
    rw [StreamRun.reports] at this
    rw [this]; rfl

/-- C25. At most one payload is ever handed to the endpoint. -/
theorem C25_one_payload (id : Nat) (peer : A) (me : I) (maxFrame dl : Nat)
    (k : Option (OutKind × Bytes)) (ops : List StreamOp) (r : StreamRun I A)
    (hr : r = StreamRun.run CI CA { s := Stream.fresh id peer me maxFrame dl k } ops) :
    (r.payloads ++ r.s.endpointEvents).length ≤ 1 := by
  subst hr
  exact payloads_le ((RunInv.fresh id peer me maxFrame dl k).run (CI := CI) (CA := CA) ops).handed

/-- C25. A failed exchange hands over nothing that was still queued. -/
theorem C25_failed_discards (id : Nat) (peer : A) (me : I) (maxFrame dl : Nat)
    (k : Option (OutKind × Bytes)) (ops : List StreamOp) (r : StreamRun I A)
    (hr : r = StreamRun.run CI CA { s := Stream.fresh id peer me maxFrame dl k } ops) (e : StreamErr)
    (he : r.s.phase = .failed e) : r.s.endpointEvents = [] := by
  subst hr
  exact (((RunInv.fresh id peer me maxFrame dl k).run (CI := CI) (CA := CA) ops).cleared e he).1

/-- C25. The end is final: whatever is called afterwards, nothing more is sent, no timer is asked for,
and a failure stays that failure. -/
theorem C25_final (r : StreamRun I A) (h : Ended r.s) (ops : List StreamOp) :
    Ended (r.run CI CA ops).s ∧ (r.run CI CA ops).sent = r.sent ∧
      (r.run CI CA ops).s.pollTimeout = none ∧
      (∀ e, r.s.phase = .failed e → (r.run CI CA ops).s.phase = .failed e) := by
  obtain ⟨h1, h2, h3⟩ := ended_run (CI := CI) (CA := CA) ops h
  refine ⟨h1, h2, ?_, h3⟩
  unfold Stream.pollTimeout
  rcases h1 with h1 | ⟨e, h1⟩ <;> rw [h1]

/-- C25. The `expect` on encoding an ack (the one place the code could panic) is unreachable. -/
theorem C25_no_panic (id : Nat) (peer : A) (me : I) (maxFrame dl : Nat)
    (k : Option (OutKind × Bytes)) (ops : List StreamOp) :
    (StreamRun.run CI CA { s := Stream.fresh id peer me maxFrame dl k } ops).s.phase ≠ .failed .panic := by
  intro h
  have := ((RunInv.fresh id peer me maxFrame dl k).run (CI := CI) (CA := CA) ops).reports
  rw [h] at this
  exact this.1 rfl

/-! ### C24 chunking -/

/-- C24. Once the peer has closed, the outcome of an exchange depends only on the bytes received: any
two ways of splitting them into (non-empty) chunks, at any times before the deadline, show the same
phase, payloads, reports and output (up to the recorded ack time). -/
theorem C24_chunking_invisible (s : Stream I A) (c1 c2 : List (Bytes × Nat)) (e1 e2 : Nat)
    (hbytes : (c1.map (·.1)).flatten = (c2.map (·.1)).flatten)
    (h1 : ∀ c ∈ c1, c.1 ≠ [] ∧ BeforeDeadline s c.2) (h2 : ∀ c ∈ c2, c.1 ≠ [] ∧ BeforeDeadline s c.2)
    (he1 : BeforeDeadline s e1) (he2 : BeforeDeadline s e2) :
    outcome (deliver CI CA s c1 e1) = outcome (deliver CI CA s c2 e2) := by
  rw [deliver_outcome (fun c hc => (h1 c hc).1) (fun c hc => (h1 c hc).2) he1,
    deliver_outcome (fun c hc => (h2 c hc).1) (fun c hc => (h2 c hc).2) he2, hbytes]

/-- C24. An accepted connection is worth exactly the one message its bytes spell, however they were
split. -/
theorem C24_accepted (id : Nat) (peer : A) (me : I) (maxFrame dl : Nat) (cs : List (Bytes × Nat))
    (eof : Nat) (hcs : ∀ c ∈ cs, c.1 ≠ [] ∧ c.2 < dl) (he : eof < dl) :
    outcome (deliver CI CA (Stream.fresh id peer me maxFrame dl none) cs eof) =
      acceptedOutcome CI CA id peer me maxFrame (cs.map (·.1)).flatten := by
  have hb : ∀ n, n < dl → BeforeDeadline (Stream.fresh id peer me maxFrame dl none : Stream I A) n := by
    intro n hn d hd
    simp only [Stream.fresh, Option.some.injEq] at hd
    omega
  rw [deliver_outcome (fun c hc => (hcs c hc).1) (fun c hc => hb _ (hcs c hc).2) (hb _ he)]
  generalize (cs.map (·.1)).flatten = bs
  split
  · rename_i h
    subst h
    unfold acceptedOutcome
    have : (parseMessage CI CA [] : Except CodecError (Message I A)) = .error (.frame .empty) := rfl
    rw [this]
    simp only [ite_self]
    rfl
  · rename_i hne
    rw [single_outcome rfl rfl bs hne (.inl rfl)]
    unfold acceptedOutcome
    have hm : (erase (Stream.fresh id peer me maxFrame dl none : Stream I A)).maxFrame = maxFrame := rfl
    rw [hm]
    split
    · rfl
    · cases parseMessage CI CA bs with
      | error e => rfl
      | ok m =>
        dsimp only
        cases m with
        | ping p =>
          simp only [Stream.dispatch, erase, Stream.fresh]
          by_cases hp : p.target.id = me
          · simp only [hp, ne_eq, not_true_eq_false, if_false, if_true]
            cases encodeTyped CI CA (.ack p.seq []) with
            | error e => rfl
            | ok b => rfl
          · simp [hp]
        | userData d => rfl
        | pushPull pp => rfl
        | _ => all_goals rfl

/-- C24. A dialled exchange whose request has been sent is worth exactly the reply its bytes spell. -/
theorem C24_dialled (id : Nat) (peer : A) (me : I) (maxFrame dl : Nat) (k : OutKind) (req : Bytes)
    (hreq : req ≠ []) (t : Nat) (ht : t < dl) (cs : List (Bytes × Nat))
    (eof : Nat) (hcs : ∀ c ∈ cs, c.1 ≠ [] ∧ c.2 < dl) (he : eof < dl) :
    ((Stream.fresh id peer me maxFrame dl (some (k, req)) : Stream I A).pollTransmit t).2 = some [req] ∧
    outcome (deliver CI CA
        ((Stream.fresh id peer me maxFrame dl (some (k, req)) : Stream I A).pollTransmit t).1 cs eof) =
      dialledOutcome CI CA id peer k maxFrame (cs.map (·.1)).flatten := by
  have hx : (Stream.fresh id peer me maxFrame dl (some (k, req)) : Stream I A).expired t = false := by
    simp [Stream.expired, Stream.fresh]; omega
  have hs : (Stream.fresh id peer me maxFrame dl (some (k, req)) : Stream I A).pollTransmit t =
      (afterRequest id peer me maxFrame dl k, some [req]) := by
    unfold Stream.pollTransmit
    rw [hx]
    cases k <;> simp [Stream.fresh, hreq, afterRequest]
  rw [hs]
  refine ⟨rfl, ?_⟩
  dsimp only
  generalize hss : (afterRequest id peer me maxFrame dl k : Stream I A) = s
  have hdl : s.deadline = some dl := by subst hss; cases k <;> rfl
  have hb : ∀ n, n < dl → BeforeDeadline s n := by
    intro n hn d hd
    rw [hdl] at hd
    injection hd with hd
    omega
  rw [deliver_outcome (fun c hc => (hcs c hc).1) (fun c hc => hb _ (hcs c hc).2) (hb _ he)]
  generalize (cs.map (·.1)).flatten = bs
  split
  · rename_i h
    subst h
    subst hss
    have hpe : (parseMessage CI CA [] : Except CodecError (Message I A)) = .error (.frame .empty) := rfl
    cases k <;> simp only [dialledOutcome, hpe, ite_self, if_true]
    all_goals rfl
  · rename_i hne
    subst hss
    cases k with
    | userMessage =>
      simp only [dialledOutcome, hne, if_false]
      refine eof_doomed rfl (.inl ⟨.decode, ?_⟩)
      simp [feed, Stream.handleData, erase, hne, Stream.enterFailed, afterRequest]
    | pushPull kind =>
      rw [single_outcome rfl rfl bs hne (.inr ⟨.pushPull kind, rfl, by simp⟩)]
      simp only [dialledOutcome]
      have hm : (erase (afterRequest id peer me maxFrame dl (.pushPull kind) : Stream I A)).maxFrame = maxFrame := rfl
      rw [hm]
      split
      · rfl
      · cases parseMessage CI CA bs with
        | error e => rfl
        | ok m => cases m <;> rfl
    | reliablePing seq =>
      rw [single_outcome rfl rfl bs hne (.inr ⟨.reliablePing seq, rfl, by simp⟩)]
      simp only [dialledOutcome]
      have hm : (erase (afterRequest id peer me maxFrame dl (.reliablePing seq) : Stream I A)).maxFrame = maxFrame := rfl
      rw [hm]
      split
      · rfl
      · cases parseMessage CI CA bs with
        | error e => rfl
        | ok m =>
          cases m with
          | ack n p =>
            dsimp only
            simp only [Stream.dispatch, erase, afterRequest]
            by_cases hn : n = seq
            · simp [hn]; rfl
            · simp [hn]
          | _ => all_goals rfl

end

/-! ### Witnesses -/

/-- An accepted test stream with a 64-byte limit and a deadline at time 100. -/
def exStream : Stream RStr SocketAddr :=
  Stream.fresh 1 (.v4 ⟨[127, 0, 0, 1], rfl⟩ 7000) ⟨[0x61], by decide⟩ 64 100 none

/-- A user-data frame carrying the bytes "hi". -/
def exFrame : Bytes := [9, 4, 0x0a, 2, 0x68, 0x69]

/-- The hypotheses of C24 and C25 are met, and the exchange really delivers its message. -/
example : outcome (deliver stringCodec addrCodec exStream [([9, 4], 1), ([0x0a, 2, 0x68, 0x69], 2)] 3) =
    .active .done [.userData (.v4 ⟨[127, 0, 0, 1], rfl⟩ 7000) [0x68, 0x69]] [.closed] [] := by
  decide +kernel

/-- The same bytes with one more are refused, in one chunk or in two. -/
example : outcome (deliver stringCodec addrCodec exStream [(exFrame ++ [0], 1)] 3) = .failed ∧
    outcome (deliver stringCodec addrCodec exStream [(exFrame, 1), ([0], 1)] 3) = .failed := by
  decide +kernel

/-- C24. The peer's close matters: a driver that collects payloads before it has seen the close can
receive the message under one chunking and not under another of the same bytes. -/
theorem C24_early_collection_witness :
    (StreamRun.run stringCodec addrCodec { s := exStream }
      [.data exFrame 1, .pollEndpointEvent, .data [0] 2, .data [] 3]).payloads.length = 1 ∧
    (StreamRun.run stringCodec addrCodec { s := exStream }
      [.data (exFrame ++ [0]) 1, .pollEndpointEvent, .data [] 3]).payloads.length = 0 := by
  decide +kernel

/-- C25. The completed-then-failed sequence is real: the report `closed` has been collected, then stray
bytes arrive and a second report is made. -/
theorem C25_closed_then_failed_witness :
    (StreamRun.run stringCodec addrCodec { s := exStream }
      [.data exFrame 1, .pollEvent, .data [0] 2, .pollEvent]).events = [.closed, .failed .decode] := by
  decide +kernel

example : PeerQuietAfterDone stringCodec addrCodec { s := exStream }
    [.data [9, 4] 1, .data [0x0a, 2, 0x68, 0x69] 2, .data [] 3, .pollEvent] ∧
    Ended (StreamRun.run stringCodec addrCodec { s := exStream }
      [.data [9, 4] 1, .data [0x0a, 2, 0x68, 0x69] 2, .data [] 3, .pollEvent]).s := by
  refine ⟨⟨?_, ?_, ?_, ?_, trivial⟩, .inl (by decide +kernel)⟩ <;> intro h b now hop <;>
    first | cases hop; done | (cases hop; first | rfl | (revert h; decide +kernel))

example : ¬ Ended exStream ∧ exStream.deadline = some 100 ∧ (100 : Nat) ≤ 150 := by
  refine ⟨?_, rfl, by decide⟩
  rintro (h | ⟨e, h⟩) <;> cases h

end Verif.Props
