import Verif.Proof.StreamChunk
import Verif.Proof.Required2
namespace Verif
open Spec

section
variable {I A : Type} [DecidableEq I] {CI : DataCodec I} {CA : DataCodec A}

/-! ### Whole-frame decoding -/

theorem wireDecode_parse {frame : Bytes} {n : Nat} {m : Message I A}
    (h : wireDecode CI CA frame = .ok (n, m)) (hn : n = frame.length) :
    parseMessage CI CA frame = .ok m := by
  unfold wireDecode at h
  unfold parseMessage
  split at h
  · cases h
  · rename_i k any hd
    rw [hd]
    split at h
    · cases h
    · rename_i m' hm
      injection h with h
      injection h with h1 h2
      subst h1 h2
      simp [hn, hm]

theorem parse_wireDecode {frame : Bytes} {m : Message I A}
    (h : parseMessage CI CA frame = .ok m) : wireDecode CI CA frame = .ok (frame.length, m) := by
  unfold parseMessage at h
  unfold wireDecode
  split at h
  · cases h
  · rename_i k any hd
    rw [hd]
    split at h
    · cases h
    · rename_i hk
      split at h
      · cases h
      · rename_i m' hm
        injection h with h
        subst h
        simp only [not_not] at hk
        simp [hm, hk]

/-- The ack of a decoded ping always encodes. -/
theorem ack_encodes {frame : Bytes} {p : Ping I A} (h : parseMessage CI CA frame = .ok (.ping p)) :
    ∃ b, encodeTyped CI CA (.ack p.seq []) = .ok b := by
  obtain ⟨tag, body, fs, a, h1, h2, h3, h4⟩ := parseMessage_ok h
  have hm := means_of_accept h3 h4
  have hseq : p.seq < 2 ^ 32 := by
    cases tag <;> simp only [MeansFields] at hm
    obtain ⟨⟨w, _, hw⟩, _⟩ := hm
    omega
  unfold encodeTyped messageToAny encodeMessage
  simp only
  have hlen : (AnyMessage.ack { seq := p.seq, payload := [] }).body.length < 2 ^ 32 := by
    have h5 := varintLen_le_five hseq
    have e8 : varintLen 8 = 1 := by unfold varintLen; simp
    simp only [AnyMessage.body, AnyMessage.toFields, PbAck.toFields, impLen, impU32]
    split
    · simp [encodeFields]
    · simp [encodeFields, encodeField, encodeVarint_length, e8]
      omega
  refine ⟨plainFrame ((AnyMessage.ack { seq := p.seq, payload := [] }).tag,
      (AnyMessage.ack { seq := p.seq, payload := [] }).body), ?_⟩
  rw [(encodeFrame_ok_iff _ _).2 ⟨hlen, rfl⟩]

/-! ### Effects of one call -/

/-- What a dispatched message did to a stream. -/
inductive Dispatched (s s' : Stream I A) : Prop where
  | finished (p : PayloadEvent I A) (h : s' = { s with
      endpointEvents := s.endpointEvents ++ [p]
      phase := .done
      streamEvents := s.streamEvents ++ [.closed] })
      (hp : s.phase = .inAwaiting ∨ ∃ k, s.phase = .outAwaiting k)
  | request (p : PayloadEvent I A) (h : s' = { s with
      endpointEvents := s.endpointEvents ++ [p]
      phase := .inSending }) (hp : s.phase = .inAwaiting)
  | pinged (out : Bytes) (h : s' = { s with
      outputBuf := s.outputBuf ++ [out]
      phase := .inSending }) (hp : s.phase = .inAwaiting)
  | ignored (h : s' = s) (hp : s.phase = .outAwaiting .userMessage)

theorem dispatched {s s' : Stream I A} {m : Message I A} {now : Nat}
    (h : Stream.dispatch CI CA s m now = .ok s') : Dispatched s s' := by
  unfold Stream.dispatch at h
  split at h
  · rename_i k hp
    split at h
    · injection h with h; exact .finished _ h.symm (.inr ⟨_, hp⟩)
    · cases h
  · rename_i k hp
    split at h
    · split at h
      · cases h
      · injection h with h; exact .finished _ h.symm (.inr ⟨_, hp⟩)
    · cases h
  · rename_i hp
    injection h with h; exact .ignored h.symm hp
  · rename_i hp
    split at h
    · injection h with h; exact .request _ h.symm hp
    · split at h
      · cases h
      · split at h
        · cases h
        · injection h with h; exact .pinged _ h.symm hp
    · injection h with h; exact .finished _ h.symm (.inl hp)
    · cases h
  all_goals cases h

theorem dispatch_no_panic {s : Stream I A} {m : Message I A} {frame : Bytes} {now : Nat}
    (hm : parseMessage CI CA frame = .ok m) : Stream.dispatch CI CA s m now ≠ .error .panic := by
  unfold Stream.dispatch
  split
  · split <;> simp
  · split
    · split <;> simp
    · simp
  · simp
  · split
    · simp
    · split
      · simp
      · obtain ⟨b, hb⟩ := ack_encodes hm
        rw [hb]
        simp
    · simp
    · simp
  all_goals simp

/-- What a data call did to a stream. -/
inductive DataEffect (s s' : Stream I A) : Prop where
  | same (h : s' = s)
  | fails (e : StreamErr) (he : e ≠ .panic) (h : s' = s.enterFailed e) (hp : ∀ e, s.phase ≠ .failed e)
  | buffered (b : Bytes) (hb : b.length ≤ s.maxFrame) (h : s' = { s with inputBuf := b })
      (hp : ∀ e, s.phase ≠ .failed e) (hd : s.phase ≠ .done)
  | finished (p : PayloadEvent I A) (h : s' = { s with
      endpointEvents := s.endpointEvents ++ [p]
      phase := .done
      streamEvents := s.streamEvents ++ [.closed]
      inputBuf := [] })
      (hp : s.phase = .inAwaiting ∨ ∃ k, s.phase = .outAwaiting k)
  | request (p : PayloadEvent I A) (h : s' = { s with
      endpointEvents := s.endpointEvents ++ [p]
      phase := .inSending
      inputBuf := [] }) (hp : s.phase = .inAwaiting)
  | pinged (out : Bytes) (h : s' = { s with
      outputBuf := s.outputBuf ++ [out]
      phase := .inSending
      inputBuf := [] }) (hp : s.phase = .inAwaiting)

theorem tryDecode_no_panic (s : Stream I A) (now : Nat) :
    Stream.tryDecodeFrame CI CA s now ≠ .error .panic := by
  unfold Stream.tryDecodeFrame
  split
  · simp
  · simp
  · rename_i t n hp
    simp only
    split
    · rename_i e hw
      unfold wireDecode at hw
      split at hw
      · injection hw with hw; subst hw; simp
      · split at hw
        · injection hw with hw; subst hw; simp
        · cases hw
    · rename_i c m hw
      by_cases hc : c = n
      · simp only [hc, ne_eq, not_true_eq_false, if_false]
        have hlen : n = (s.inputBuf.take n).length := by
          have := (probeFrame_some_le _ _ hp).2.1
          simp only [List.length_take]
          omega
        have hm := wireDecode_parse hw (by rw [hc]; exact hlen)
        have := dispatch_no_panic (s := { s with inputBuf := s.inputBuf.drop n }) (now := now) hm
        split
        · rename_i e he
          rw [he] at this
          exact this
        · split <;> simp
      · simp [hc]

theorem data_effect (s : Stream I A) (d : Bytes) (now : Nat) :
    DataEffect s (s.handleData CI CA d now).1 := by
  unfold Stream.handleData
  split
  · exact .same rfl
  · rename_i hp
    split
    · exact .same rfl
    · exact .fails .decode (by simp) rfl (by simp [hp])
  · rename_i hnf hnd
    split
    · rename_i s' h
      unfold Stream.handleDataInner at h
      split at h
      · cases h
      · split at h
        · split at h <;> first
            | (injection h with h; exact .same h.symm)
            | (cases h; done)
            | (split at h <;> first | (injection h with h; exact .same h.symm) | (cases h; done))
        · split at h
          · cases h
          · rename_i hlen
            unfold Stream.tryDecodeFrame at h
            split at h
            · cases h
            · injection h with h
              refine .buffered (s.inputBuf ++ d) ?_ h.symm hnf hnd
              simp only [List.length_append]
              omega
            · simp only at h
              split at h
              · cases h
              · split at h
                · cases h
                · split at h
                  · cases h
                  · rename_i s1 hdp
                    have hb : s1.inputBuf.length ≤ s.maxFrame := by
                      rw [(dispatch_frame hdp).2.2]
                      simp only [List.length_drop, List.length_append]
                      omega
                    split at h
                    · cases h
                    · rename_i hforb
                      injection h with h
                      subst h
                      rcases dispatched hdp with ⟨p, h1, h2⟩ | ⟨p, h1, h2⟩ | ⟨o, h1, h2⟩ | ⟨h1, h2⟩
                      · subst h1
                        simp only [Stream.forbidsFurtherInput, true_and, ne_eq, not_not] at hforb
                        refine .finished p ?_ h2
                        dsimp only
                        rw [hforb]
                      · subst h1
                        simp only [Stream.forbidsFurtherInput, true_and, ne_eq, not_not] at hforb
                        refine .request p ?_ h2
                        dsimp only
                        rw [hforb]
                      · subst h1
                        simp only [Stream.forbidsFurtherInput, true_and, ne_eq, not_not] at hforb
                        refine .pinged o ?_ h2
                        dsimp only
                        rw [hforb]
                      · subst h1
                        exact .buffered _ hb rfl hnf hnd
    · rename_i e h
      refine .fails e ?_ rfl hnf
      rintro rfl
      unfold Stream.handleDataInner at h
      split at h
      · cases h
      · split at h
        · split at h <;> first
            | (cases h; done)
            | (split at h <;> cases h)
        · split at h
          · cases h
          · exact tryDecode_no_panic _ _ h

/-- What `poll_transmit` did. -/
inductive SendEffect (now : Nat) (s s' : Stream I A) (out : List Bytes) : Prop where
  | same (h : s' = s) (ho : out = [])
  | timeout (d : Nat) (hd : s.deadline = some d) (hn : d ≤ now) (h : s' = s.enterFailed .timeout)
      (ho : out = []) (hp : ∀ e, s.phase ≠ .failed e) (hd' : s.phase ≠ .done)
  | sent (p : Phase) (h : s' = { s with
      outputBuf := []
      phase := p }) (hp : ∀ e, s.phase ≠ .failed e) (hd : s.phase ≠ .done)
      (hp' : p = s.phase ∨ ∃ k, s.phase = .outSending k ∧ p = .outAwaiting k)
  | sentLast (h : s' = { s with
      outputBuf := []
      phase := .done
      streamEvents := s.streamEvents ++ [.closed] })
      (hp : s.phase = .inSending ∨ s.phase = .outSending .userMessage)

theorem expired_some {s : Stream I A} {now : Nat} (h : s.expired now = true) :
    ∃ d, s.deadline = some d ∧ d ≤ now := by
  unfold Stream.expired at h
  split at h
  · cases h
  · rename_i d hd
    exact ⟨d, hd, by simpa using h⟩

theorem send_effect (s : Stream I A) (now : Nat) :
    SendEffect now s (s.pollTransmit now).1 ((s.pollTransmit now).2.getD []) := by
  unfold Stream.pollTransmit
  split
  · exact .same rfl rfl
  · exact .same rfl rfl
  · rename_i hnd hnf
    by_cases hx : s.expired now = true
    · simp only [hx, if_true]
      obtain ⟨d, hd, hn⟩ := expired_some hx
      exact .timeout d hd hn rfl rfl hnf hnd
    · simp only [hx, Bool.false_eq_true, if_false]
      split
      · exact .same rfl rfl
      · cases hp : s.phase with
        | outSending k =>
          cases k with
          | userMessage => exact .sentLast (by simp) (.inr hp)
          | pushPull k => exact .sent _ rfl hnf hnd (.inr ⟨_, hp, rfl⟩)
          | reliablePing k => exact .sent _ rfl hnf hnd (.inr ⟨_, hp, rfl⟩)
        | inSending => exact .sentLast (by simp) (.inl hp)
        | outAwaiting k => exact .sent _ rfl hnf hnd (.inl hp.symm)
        | inAwaiting => exact .sent _ rfl hnf hnd (.inl hp.symm)
        | done => exact absurd hp hnd
        | failed e => exact absurd hp (hnf e)

/-! ### The invariant of every history -/

/-- The reports made so far, delivered or still queued. -/
def StreamRun.reports (r : StreamRun I A) : List StreamEvent := r.events ++ r.s.streamEvents

/-- The payloads handed over so far, delivered or still queued. -/
def StreamRun.handed (r : StreamRun I A) : List (PayloadEvent I A) := r.payloads ++ r.s.endpointEvents

/-- The reports allowed in each phase. -/
def PhaseReports : Phase → List StreamEvent → Prop
  | .done, l => l = [.closed]
  | .failed e, l => e ≠ .panic ∧ (l = [.failed e] ∨ l = [.closed, .failed e])
  | _, l => l = []

/-- The payload counts allowed in each phase. -/
def PhasePayloads : Phase → Nat → Prop
  | .outSending _, n => n = 0
  | .outAwaiting _, n => n = 0
  | .inAwaiting, n => n = 0
  | _, n => n ≤ 1

structure RunInv (maxFrame : Nat) (r : StreamRun I A) : Prop where
  maxf : r.s.maxFrame = maxFrame
  buf : r.s.inputBuf.length ≤ maxFrame
  reports : PhaseReports r.s.phase r.reports
  queue : r.s.streamEvents.length ≤ 1
  handed : PhasePayloads r.s.phase r.handed.length
  cleared : ∀ e, r.s.phase = .failed e → r.s.endpointEvents = [] ∧ r.s.inputBuf = []

theorem reports_live {p : Phase} {l : List StreamEvent} (h : PhaseReports p l) (hd : p ≠ .done)
    (hf : ∀ e, p ≠ .failed e) : l = [] := by
  cases p <;> simp_all [PhaseReports]

theorem payloads_le {p : Phase} {n : Nat} (h : PhasePayloads p n) : n ≤ 1 := by
  cases p <;> simp_all [PhasePayloads]

theorem RunInv.fail {m : Nat} {r : StreamRun I A} (h : RunInv m r) {e : StreamErr} (he : e ≠ .panic)
    (hp : ∀ e, r.s.phase ≠ .failed e) : RunInv m { r with s := r.s.enterFailed e } := by
  refine RunInv.mk h.maxf (Nat.zero_le _) ?_ ?_ ?_ ?_
  · have hr := h.reports
    simp only [StreamRun.reports, Stream.enterFailed, PhaseReports] at hr ⊢
    refine ⟨he, ?_⟩
    cases hph : r.s.phase with
    | failed e => exact absurd hph (hp e)
    | done =>
      rw [hph] at hr
      simp only at hr
      cases hev : r.events with
      | nil => exact .inl rfl
      | cons a l =>
        rw [hev] at hr
        simp only [List.cons_append, List.cons.injEq, List.append_eq_nil_iff] at hr
        right
        rw [hr.1, hr.2.1]
        rfl
    | _ =>
      all_goals
        rw [hph] at hr
        simp only [List.append_eq_nil_iff] at hr
        rw [hr.1]
        exact .inl rfl
  · simp [Stream.enterFailed]
  · have hh := payloads_le h.handed
    simp only [StreamRun.handed, Stream.enterFailed, PhasePayloads, List.length_append] at hh ⊢
    simp only [List.length_nil]
    omega
  · intro e' _
    exact ⟨rfl, rfl⟩

theorem RunInv.step {m : Nat} {r : StreamRun I A} (h : RunInv m r) (op : StreamOp) :
    RunInv m (r.step CI CA op) := by
  have hlive : r.s.phase ≠ .done → (∀ e, r.s.phase ≠ .failed e) → r.events = [] ∧ r.s.streamEvents = [] := by
    intro h1 h2
    have := reports_live h.reports h1 h2
    simpa [StreamRun.reports] using this
  have hfinish : ∀ (p : List (PayloadEvent I A)) (b : Bytes) (o : List Bytes), b = [] →
      (r.handed ++ p).length ≤ 1 → r.s.phase ≠ .done → (∀ e, r.s.phase ≠ .failed e) →
      RunInv m { r with s := { r.s with
        endpointEvents := r.s.endpointEvents ++ p
        phase := .done
        streamEvents := r.s.streamEvents ++ [.closed]
        outputBuf := o
        inputBuf := b } } := by
    intro p b o hb hl h1 h2
    obtain ⟨e1, e2⟩ := hlive h1 h2
    refine RunInv.mk h.maxf (by simp [hb]) ?_ ?_ ?_ ?_
    · simp [StreamRun.reports, PhaseReports, e1, e2]
    · simp [e2]
    · simp only [PhasePayloads, StreamRun.handed, List.length_append] at hl ⊢
      omega
    · intro e he; simp at he
  cases op with
  | data b now =>
    have := data_effect (CI := CI) (CA := CA) r.s b now
    simp only [StreamRun.step]
    generalize (r.s.handleData CI CA b now).1 = s' at this
    cases this with
    | same h1 => rw [h1]; exact h
    | fails e he h1 hp => rw [h1]; exact h.fail he hp
    | buffered b' hb h1 hp hd =>
      rw [h1]
      refine RunInv.mk h.maxf ?_ h.reports h.queue h.handed ?_
      · rw [← h.maxf]; exact hb
      · intro e he; exact absurd he (hp e)
    | finished p h1 hp =>
      rw [h1]
      have hz : r.handed.length = 0 := by
        have := h.handed
        rcases hp with hp | ⟨k, hp⟩ <;> rw [hp] at this <;> exact this
      have := hfinish [p] [] r.s.outputBuf rfl (by simp [hz])
        (by rcases hp with hp | ⟨k, hp⟩ <;> simp [hp]) (by rcases hp with hp | ⟨k, hp⟩ <;> simp [hp])
      exact this
    | request p h1 hp =>
      rw [h1]
      have hz : r.handed.length = 0 := by
        have := h.handed
        rw [hp] at this; exact this
      obtain ⟨e1, e2⟩ := hlive (by simp [hp]) (by simp [hp])
      refine RunInv.mk h.maxf (by simp) ?_ h.queue ?_ ?_
      · simp [StreamRun.reports, PhaseReports, e1, e2]
      · simp only [PhasePayloads, StreamRun.handed, List.length_append, List.length_cons,
          List.length_nil] at hz ⊢
        omega
      · intro e he; simp at he
    | pinged o h1 hp =>
      rw [h1]
      have hz : r.handed.length = 0 := by
        have := h.handed
        rw [hp] at this; exact this
      obtain ⟨e1, e2⟩ := hlive (by simp [hp]) (by simp [hp])
      refine RunInv.mk h.maxf (by simp) ?_ h.queue ?_ ?_
      · simp [StreamRun.reports, PhaseReports, e1, e2]
      · simp only [PhasePayloads, StreamRun.handed] at hz ⊢
        omega
      · intro e he; simp at he
  | pollTransmit now =>
    have := send_effect r.s now
    simp only [StreamRun.step]
    generalize (r.s.pollTransmit now).1 = s' at this
    generalize (r.s.pollTransmit now).2.getD [] = out at this ⊢
    have hsent : ∀ {q : StreamRun I A} (l : List Bytes), RunInv m q → RunInv m { q with sent := l } :=
      fun l hq => ⟨hq.1, hq.2, hq.3, hq.4, hq.5, hq.6⟩
    cases this with
    | same h1 ho => rw [h1]; exact hsent (q := r) _ h
    | timeout d hd hn h1 ho hp hp' =>
      rw [h1]
      exact hsent (q := { r with s := r.s.enterFailed .timeout }) _ (h.fail (by simp) hp)
    | sent p h1 hp hd hp' =>
      rw [h1]
      rcases hp' with hp' | ⟨k, hk, hp'⟩
      · refine RunInv.mk h.maxf h.buf ?_ h.queue ?_ ?_
        · rw [hp']; exact h.reports
        · rw [hp']; exact h.handed
        · intro e he; rw [hp'] at he; exact absurd he (hp e)
      · refine RunInv.mk h.maxf h.buf ?_ h.queue ?_ ?_
        · have := h.reports
          rw [hk] at this
          rw [hp']
          exact this
        · have := h.handed
          rw [hk] at this
          rw [hp']
          exact this
        · intro e he; rw [hp'] at he; simp at he
    | sentLast h1 hp =>
      rw [h1]
      obtain ⟨e1, e2⟩ := hlive (by rcases hp with hp | hp <;> simp [hp]) (by rcases hp with hp | hp <;> simp [hp])
      refine RunInv.mk h.maxf h.buf ?_ ?_ ?_ ?_
      · simp [StreamRun.reports, PhaseReports, e1, e2]
      · simp [e2]
      · exact payloads_le h.handed
      · intro e he; simp at he
  | handleTimeout now =>
    simp only [StreamRun.step]
    unfold Stream.handleTimeout
    split
    · split
      · exact h
      · exact h
      · rename_i h1 h2
        exact h.fail (by simp) h2
    · exact h
  | pollEndpointEvent =>
    simp only [StreamRun.step, Stream.pollEndpointEvent]
    split
    · rename_i he
      simp only [Option.toList_none, List.append_nil]
      exact h
    · rename_i e es he
      refine RunInv.mk h.maxf h.buf h.reports h.queue ?_ ?_
      · have := h.handed
        simp only [StreamRun.handed, he, List.length_append, List.length_cons, Option.toList_some] at this ⊢
        simpa [Nat.add_assoc, Nat.add_comm 1] using this
      · intro e' he'
        have := (h.cleared e' he').1
        rw [he] at this
        cases this
  | pollEvent =>
    simp only [StreamRun.step, Stream.pollEvent]
    split
    · simp only [Option.toList_none, List.append_nil]
      exact h
    · rename_i e es he
      refine RunInv.mk h.maxf h.buf ?_ ?_ h.handed h.cleared
      · have := h.reports
        simp only [StreamRun.reports, he, Option.toList_some, List.append_assoc, List.singleton_append]
          at this ⊢
        exact this
      · have := h.queue
        rw [he] at this
        simp only [List.length_cons] at this
        dsimp only
        omega
  | loadResponse e d =>
    simp only [StreamRun.step, Stream.loadResponse]
    exact RunInv.mk h.maxf h.buf h.reports h.queue h.handed h.cleared

theorem RunInv.run {m : Nat} : ∀ (ops : List StreamOp) {r : StreamRun I A}, RunInv m r →
    RunInv m (r.run CI CA ops)
  | [], _, h => h
  | op :: ops, r, h => RunInv.run ops (r := r.step CI CA op) (h.step op)

theorem RunInv.fresh (id : Nat) (peer : A) (me : I) (m dl : Nat) (k : Option (OutKind × Bytes)) :
    RunInv m { s := Stream.fresh id peer me m dl k : StreamRun I A } := by
  cases k with
  | none =>
    exact RunInv.mk rfl (Nat.zero_le _) rfl (Nat.zero_le _) rfl (by intro e he; simp [Stream.fresh] at he)
  | some k =>
    obtain ⟨k, req⟩ := k
    exact RunInv.mk rfl (Nat.zero_le _) rfl (Nat.zero_le _) rfl (by intro e he; simp [Stream.fresh] at he)

theorem run_append (r : StreamRun I A) (a b : List StreamOp) :
    r.run CI CA (a ++ b) = (r.run CI CA a).run CI CA b := by
  simp [StreamRun.run, List.foldl_append]

/-! ### After the end -/

theorem ended_step {r : StreamRun I A} (h : Ended r.s) (op : StreamOp) :
    Ended (r.step CI CA op).s ∧ (r.step CI CA op).sent = r.sent ∧
      (∀ e, r.s.phase = .failed e → (r.step CI CA op).s.phase = .failed e) := by
  cases op with
  | data b now =>
    simp only [StreamRun.step, Stream.handleData]
    rcases h with h | ⟨e, h⟩
    · rw [h]
      dsimp only
      split
      · exact ⟨.inl h, by trivial, by simp⟩
      · exact ⟨.inr ⟨_, rfl⟩, by trivial, by simp⟩
    · rw [h]
      exact ⟨.inr ⟨e, h⟩, by trivial, fun e' he => by dsimp only; rw [h, he]⟩
  | pollTransmit now =>
    simp only [StreamRun.step, Stream.pollTransmit]
    rcases h with h | ⟨e, h⟩
    · rw [h]
      exact ⟨.inl h, by simp, by simp⟩
    · rw [h]
      exact ⟨.inr ⟨e, h⟩, by simp, fun e' he => by dsimp only; rw [h, he]⟩
  | handleTimeout now =>
    simp only [StreamRun.step, Stream.handleTimeout]
    split
    · rcases h with h | ⟨e, h⟩
      · rw [h]
        exact ⟨.inl h, by trivial, by simp⟩
      · rw [h]
        exact ⟨.inr ⟨e, h⟩, by trivial, fun e' he => by dsimp only; rw [h, he]⟩
    · exact ⟨h, by trivial, fun _ he => he⟩
  | pollEndpointEvent =>
    simp only [StreamRun.step, Stream.pollEndpointEvent]
    split
    · exact ⟨h, by trivial, fun _ he => he⟩
    · exact ⟨h, by trivial, fun _ he => he⟩
  | pollEvent =>
    simp only [StreamRun.step, Stream.pollEvent]
    split
    · exact ⟨h, by trivial, fun _ he => he⟩
    · exact ⟨h, by trivial, fun _ he => he⟩
  | loadResponse e d =>
    simp only [StreamRun.step, Stream.loadResponse]
    exact ⟨h, by simp, fun _ he => he⟩

theorem ended_run : ∀ (ops : List StreamOp) {r : StreamRun I A}, Ended r.s →
    Ended (r.run CI CA ops).s ∧ (r.run CI CA ops).sent = r.sent ∧
      (∀ e, r.s.phase = .failed e → (r.run CI CA ops).s.phase = .failed e)
  | [], _, h => ⟨h, rfl, fun _ he => he⟩
  | op :: ops, r, h => by
    obtain ⟨h1, h2, h3⟩ := ended_step (CI := CI) (CA := CA) h op
    obtain ⟨g1, g2, g3⟩ := ended_run ops h1
    exact ⟨g1, g2.trans h2, fun e he => g3 e (h3 e he)⟩

/-- How a run comes to be failed. -/
theorem step_failed {m : Nat} {r : StreamRun I A} (h : RunInv m r) {op : StreamOp} {e : StreamErr}
    (hf : (r.step CI CA op).s.phase = .failed e) :
    (r.s.phase = .failed e ∧ (r.step CI CA op).reports = r.reports) ∨
    (r.s.phase = .done ∧ ∃ b now, op = .data b now ∧ b ≠ []) ∨
    (r.step CI CA op).reports = [.failed e] := by
  by_cases hend : Ended r.s
  · rcases hend with hd | ⟨e', hd⟩
    · -- completed before: only stray bytes can fail it
      cases op with
      | data b now =>
        by_cases hb : b = []
        · exfalso
          simp only [StreamRun.step, Stream.handleData, hd, hb, if_true] at hf
          cases hf
        · exact .inr (.inl ⟨hd, b, now, rfl, hb⟩)
      | pollTransmit now =>
        exfalso
        simp only [StreamRun.step, Stream.pollTransmit, hd] at hf
        cases hf
      | handleTimeout now =>
        exfalso
        simp only [StreamRun.step, Stream.handleTimeout, hd, ite_self] at hf
        cases hf
      | pollEndpointEvent =>
        exfalso
        simp only [StreamRun.step, Stream.pollEndpointEvent] at hf
        split at hf <;> (simp only [hd] at hf; cases hf)
      | pollEvent =>
        exfalso
        simp only [StreamRun.step, Stream.pollEvent] at hf
        split at hf <;> (simp only [hd] at hf; cases hf)
      | loadResponse x d =>
        exfalso
        simp only [StreamRun.step, Stream.loadResponse, hd] at hf
        cases hf
    · have hk := (ended_step (CI := CI) (CA := CA) (r := r) (.inr ⟨e', hd⟩) op).2.2 e' hd
      rw [hf] at hk
      injection hk with hk
      subst hk
      refine .inl ⟨hd, ?_⟩
      cases op with
      | data b now => simp only [StreamRun.step, Stream.handleData, hd, StreamRun.reports]
      | pollTransmit now => simp only [StreamRun.step, Stream.pollTransmit, hd, StreamRun.reports]
      | handleTimeout now => simp only [StreamRun.step, Stream.handleTimeout, hd, ite_self, StreamRun.reports]
      | pollEndpointEvent =>
        simp only [StreamRun.step, Stream.pollEndpointEvent, StreamRun.reports]
        split <;> rfl
      | pollEvent =>
        simp only [StreamRun.step, Stream.pollEvent, StreamRun.reports]
        split
        · simp
        · rename_i x xs hx
          simp [hx]
      | loadResponse x d => simp only [StreamRun.step, Stream.loadResponse, StreamRun.reports]
  · right; right
    have h1 : r.s.phase ≠ .done := fun h => hend (.inl h)
    have h2 : ∀ e, r.s.phase ≠ .failed e := fun e h => hend (.inr ⟨e, h⟩)
    have hrep := reports_live h.reports h1 h2
    have hev : r.events = [] := by
      simp only [StreamRun.reports, List.append_eq_nil_iff] at hrep
      exact hrep.1
    have key : ∀ e' , r.s.enterFailed e' = (r.step CI CA op).s → (r.step CI CA op).events = [] →
        (r.step CI CA op).reports = [.failed e] := by
      intro e' he' hv
      have : e' = e := by
        have := congrArg Stream.phase he'
        rw [hf] at this
        simpa [Stream.enterFailed] using this
      subst this
      rw [StreamRun.reports, hv, ← he']
      rfl
    cases op with
    | data b now =>
      have := data_effect (CI := CI) (CA := CA) r.s b now
      have hs : (r.step CI CA (.data b now)).s = (r.s.handleData CI CA b now).1 := rfl
      rw [hs] at hf
      cases this with
      | same h' => rw [h'] at hf; exact absurd hf (h2 e)
      | fails e' he h' hp => exact key e' (by rw [hs, h']) hev
      | buffered b hb h' hp hd => rw [h'] at hf; exact absurd hf (h2 e)
      | finished p h' hp => rw [h'] at hf; cases hf
      | request p h' hp => rw [h'] at hf; cases hf
      | pinged o h' hp => rw [h'] at hf; cases hf
    | pollTransmit now =>
      have := send_effect r.s now
      have hs : (r.step CI CA (.pollTransmit now)).s = (r.s.pollTransmit now).1 := rfl
      rw [hs] at hf
      cases this with
      | same h' _ => rw [h'] at hf; exact absurd hf (h2 e)
      | timeout d hd hn h' ho hp hd' => exact key .timeout (by rw [hs, h']) hev
      | sent p h' hp hd hp' =>
        rw [h'] at hf
        rcases hp' with hp' | ⟨k, _, hp'⟩
        · rw [hp'] at hf; exact absurd hf (h2 e)
        · rw [hp'] at hf; cases hf
      | sentLast h' hp => rw [h'] at hf; cases hf
    | handleTimeout now =>
      by_cases hx : r.s.expired now = true
      · refine key .timeout ?_ hev
        simp only [StreamRun.step, Stream.handleTimeout, hx, if_true]
      · simp only [StreamRun.step, Stream.handleTimeout, hx, Bool.false_eq_true, if_false] at hf
        exact absurd hf (h2 e)
    | pollEndpointEvent =>
      simp only [StreamRun.step, Stream.pollEndpointEvent] at hf
      split at hf <;> exact absurd hf (h2 e)
    | pollEvent =>
      simp only [StreamRun.step, Stream.pollEvent] at hf
      split at hf <;> exact absurd hf (h2 e)
    | loadResponse x d => exact absurd hf (h2 e)

theorem run_quiet {m : Nat} : ∀ (ops : List StreamOp) {r : StreamRun I A}, RunInv m r →
    PeerQuietAfterDone CI CA r ops → (∀ e, r.s.phase = .failed e → r.reports = [.failed e]) →
    ∀ e, (r.run CI CA ops).s.phase = .failed e → (r.run CI CA ops).reports = [.failed e]
  | [], _, _, _, hr, e, he => hr e he
  | op :: ops, r, h, hq, hr, e, he => by
    refine run_quiet ops (r := r.step CI CA op) (h.step op) hq.2 ?_ e he
    intro e' he'
    rcases step_failed h he' with ⟨h1, h2⟩ | ⟨h1, b, now, h2, h3⟩ | h1
    · rw [h2]; exact hr e' h1
    · exact absurd (hq.1 h1 b now h2) h3
    · exact h1

/-! ### The outcome of an exchange -/

/-- A dialled exchange once its request has been handed to the transport. -/
def afterRequest (id : Nat) (peer : A) (me : I) (maxFrame dl : Nat) (k : OutKind) : Stream I A where
  id := id
  peer := peer
  localId := me
  maxFrame := maxFrame
  phase := if k = .userMessage then .done else .outAwaiting k
  inputBuf := []
  outputBuf := []
  deadline := some dl
  endpointEvents := []
  streamEvents := if k = .userMessage then [.closed] else []


theorem erase_outcome (s : Stream I A) : outcome (erase s) = outcome s := by
  have h : (s.endpointEvents.map eventShape).map eventShape = s.endpointEvents.map eventShape := by
    simp [Function.comp_def]
    intro a _; cases a <;> rfl
  unfold outcome erase
  dsimp only
  rw [h]

theorem erase_deadline (s : Stream I A) : (erase s).deadline = none := rfl

theorem deliver_erase : ∀ (cs : List (Bytes × Nat)) (s : Stream I A) (eof : Nat),
    (∀ c ∈ cs, BeforeDeadline s c.2) → BeforeDeadline s eof →
    erase (deliver CI CA s cs eof) = feed CI CA ((cs.map (·.1)).foldl (feed CI CA) (erase s)) []
  | [], s, eof, _, he => by
    simp only [deliver, List.foldl_nil, List.map_nil]
    exact handleData_erase [] he
  | c :: cs, s, eof, hc, he => by
    have hd := (handleData_frame (CI := CI) (CA := CA) s c.1 c.2).1
    have hb : ∀ n, BeforeDeadline s n → BeforeDeadline (s.handleData CI CA c.1 c.2).1 n := by
      intro n hn
      unfold BeforeDeadline
      rw [hd]
      exact hn
    have := deliver_erase cs (s.handleData CI CA c.1 c.2).1 eof
      (fun x hx => hb _ (hc x (by simp [hx]))) (hb _ he)
    simp only [deliver, List.foldl_cons, List.map_cons] at this ⊢
    rw [this, handleData_erase c.1 (hc c (by simp))]

theorem deliver_outcome {s : Stream I A} {cs : List (Bytes × Nat)} {eof : Nat}
    (hne : ∀ c ∈ cs, c.1 ≠ []) (hc : ∀ c ∈ cs, BeforeDeadline s c.2) (he : BeforeDeadline s eof) :
    outcome (deliver CI CA s cs eof) =
      if (cs.map (·.1)).flatten = [] then outcome (feed CI CA (erase s) [])
      else outcome (feed CI CA (feed CI CA (erase s) (cs.map (·.1)).flatten) []) := by
  rw [← erase_outcome, deliver_erase cs s eof hc he]
  cases cs with
  | nil => simp
  | cons c cs =>
    have h1 : ((c :: cs).map (·.1)).flatten ≠ [] := by simp [hne c (by simp)]
    rw [if_neg h1]
    refine foldl_flatten _ _ rfl (by simp) ?_
    intro x hx
    obtain ⟨y, hy, rfl⟩ := List.mem_map.1 hx
    exact hne y hy

/-- One chunk and the end of the stream, while waiting for a single frame. -/
theorem single_outcome {s : Stream I A} (hd : s.deadline = none) (hb : s.inputBuf = []) (bs : Bytes)
    (hne : bs ≠ [])
    (hp : s.phase = .inAwaiting ∨ ∃ k, s.phase = .outAwaiting k ∧ k ≠ .userMessage) :
    outcome (feed CI CA (feed CI CA s bs) []) =
      if bs.length > s.maxFrame then .failed
      else match parseMessage CI CA bs with
        | .error _ => .failed
        | .ok m => match Stream.dispatch CI CA s m 0 with
          | .error _ => .failed
          | .ok s' => outcome s' := by
  have hnu : ∀ {m : Message I A} {s' : Stream I A}, Stream.dispatch CI CA s m 0 = .ok s' →
      s'.phase = .done ∨ s'.phase = .inSending := by
    intro m s' h
    rcases dispatched h with ⟨p, h1, h2⟩ | ⟨p, h1, h2⟩ | ⟨o, h1, h2⟩ | ⟨h1, h2⟩
    · subst h1; exact .inl rfl
    · subst h1; exact .inr rfl
    · subst h1; exact .inr rfl
    · rcases hp with hp | ⟨k, hp, hk⟩
      · rw [hp] at h2; cases h2
      · rw [hp] at h2; injection h2 with h2; exact absurd h2 hk
  have hx : s.expired 0 = false := by unfold Stream.expired; rw [hd]
  have hfeed : feed CI CA s bs =
      if bs.length > s.maxFrame then erase (s.enterFailed .decode)
      else match Stream.tryDecodeFrame CI CA { s with inputBuf := bs } 0 with
        | .ok t => erase t
        | .error e => erase (s.enterFailed e) := by
    unfold feed Stream.handleData Stream.handleDataInner
    rw [hx, hb]
    simp only [Bool.false_eq_true, if_false, if_neg hne, List.nil_append, List.length_nil, Nat.zero_add]
    rcases hp with hp | ⟨k, hp, _⟩
    all_goals
      simp only [hp]
      by_cases hlen : bs.length > s.maxFrame
      · simp only [if_pos hlen]
      · simp only [if_neg hlen]
        generalize Stream.tryDecodeFrame CI CA _ 0 = q
        cases q <;> rfl
  have hfail : ∀ e, outcome (feed CI CA (erase (s.enterFailed e)) []) = .failed :=
    fun e => eof_doomed rfl (.inl ⟨e, rfl⟩)
  rw [hfeed]
  by_cases hlen : bs.length > s.maxFrame
  · rw [if_pos hlen, if_pos hlen]
    exact hfail _
  · rw [if_neg hlen, if_neg hlen]
    -- when the bytes are one whole message, the detector finds exactly that frame
    have hprobe : ∀ m, parseMessage CI CA bs = .ok m →
        ∃ t, probeFrame s.maxFrame bs = .ok (some (t, bs.length)) := by
      intro m hm
      obtain ⟨tag, body, fs, a, h1, _⟩ := parseMessage_ok hm
      exact ⟨tag.toByte, (probeFrame_some_iff _ _ _ _).2
        ⟨body, bs, [], by simp, h1, rfl, by omega⟩⟩
    unfold Stream.tryDecodeFrame
    dsimp only
    cases hpr : probeFrame s.maxFrame bs with
    | error u =>
      dsimp only
      rw [hfail]
      cases hm : parseMessage CI CA bs with
      | error e => rfl
      | ok m =>
        obtain ⟨t, ht⟩ := hprobe m hm
        rw [hpr] at ht
        cases ht
    | ok r =>
      cases r with
      | none =>
        dsimp only
        have hnm : ∃ e, parseMessage CI CA bs = .error e := by
          cases hm : parseMessage CI CA bs with
          | error e => exact ⟨e, rfl⟩
          | ok m =>
            obtain ⟨t, ht⟩ := hprobe m hm
            rw [hpr] at ht
            cases ht
        obtain ⟨e, hm⟩ := hnm
        rw [hm]
        refine outcome_failed (e := .peerClosed) ?_
        unfold feed Stream.handleData Stream.handleDataInner
        rcases hp with hp | ⟨k, hp, _⟩ <;>
          simp [erase, hp, Stream.expired, Stream.enterFailed]
      | some r =>
        obtain ⟨t, n⟩ := r
        dsimp only
        obtain ⟨hn2, hnl, hnm⟩ := probeFrame_some_le _ _ hpr
        by_cases hn : n = bs.length
        · subst hn
          rw [List.take_length, List.drop_length]
          have hs0 : ({ s with inputBuf := [] } : Stream I A) = s := by
            cases s; simp only at hb; subst hb; rfl
          rw [hs0]
          cases hw : wireDecode CI CA bs with
          | error e =>
            dsimp only
            rw [hfail]
            cases hm : parseMessage CI CA bs with
            | error e => rfl
            | ok m => rw [parse_wireDecode hm] at hw; cases hw
          | ok r =>
            obtain ⟨c, m⟩ := r
            dsimp only
            by_cases hc : c = bs.length
            · rw [wireDecode_parse hw hc]
              simp only [hc, ne_eq, not_true_eq_false, if_false]
              cases hdp : Stream.dispatch CI CA s m 0 with
              | error e => exact hfail e
              | ok s' =>
                dsimp only
                have hbuf : s'.inputBuf = [] := by rw [(dispatch_frame hdp).2.2, hb]
                rw [hbuf]
                simp only [not_true_eq_false, and_false, if_false]
                rw [← erase_outcome s']
                rcases hnu hdp with h | h
                · unfold feed Stream.handleData
                  have h' : (erase s').phase = .done := h
                  rw [h']
                  simp only [if_true]
                  exact erase_outcome _
                · have h' : (erase s').phase = .inSending := h
                  have hb' : (erase s').inputBuf = [] := hbuf
                  have hx' : (erase s').expired 0 = false := rfl
                  unfold feed Stream.handleData Stream.handleDataInner
                  rw [h', hx', hb']
                  simp only [Bool.false_eq_true, if_false, if_true, not_true_eq_false]
                  exact erase_outcome _
            · simp only [ne_eq, hc, not_false_eq_true, if_true]
              rw [hfail]
              cases hm : parseMessage CI CA bs with
              | error e => rfl
              | ok m' =>
                rw [parse_wireDecode hm] at hw
                injection hw with hw
                injection hw with hw
                exact absurd hw.symm hc
        · -- trailing bytes after the frame
          have hnm' : ∃ e, parseMessage CI CA bs = .error e := by
            cases hm : parseMessage CI CA bs with
            | error e => exact ⟨e, rfl⟩
            | ok m =>
              obtain ⟨t', ht⟩ := hprobe m hm
              rw [hpr] at ht
              injection ht with ht
              injection ht with ht
              injection ht with _ ht
              exact absurd ht hn
          obtain ⟨e, hm⟩ := hnm'
          rw [hm]
          dsimp only
          have hrest : bs.drop n ≠ [] := by
            intro h
            have := List.drop_eq_nil_iff.1 h
            omega
          cases hw : wireDecode CI CA (bs.take n) with
          | error e => exact hfail e
          | ok r =>
            obtain ⟨c, m⟩ := r
            dsimp only
            by_cases hc : c = n
            · simp only [hc, ne_eq, not_true_eq_false, if_false]
              rw [dispatch_input_irrelevant s m 0 (bs.drop n)]
              cases hdp : Stream.dispatch CI CA s m 0 with
              | error e => exact hfail e
              | ok s' =>
                simp only [Except.map]
                rcases hnu hdp with h | h
                · simp only [h, Stream.forbidsFurtherInput, hrest, not_false_eq_true, and_self, if_true]
                  exact hfail _
                · simp only [h, Stream.forbidsFurtherInput, hrest, not_false_eq_true, and_self, if_true]
                  exact hfail _
            · simp only [ne_eq, hc, not_false_eq_true, if_true]
              exact hfail _

theorem timeout_not_early (s : Stream I A) (op : StreamOp) (hlive : ¬ Ended s)
    (h : (StreamRun.step CI CA { s := s } op).s.phase = .failed .timeout) :
    ∃ d now, s.deadline = some d ∧ d ≤ now ∧
      ((∃ b, op = .data b now) ∨ op = .pollTransmit now ∨ op = .handleTimeout now) := by
  have h1 : s.phase ≠ .done := fun h => hlive (.inl h)
  have h2 : ∀ e, s.phase ≠ .failed e := fun e h => hlive (.inr ⟨e, h⟩)
  cases op with
  | data b now =>
    simp only [StreamRun.step] at h
    by_cases hx : s.expired now = true
    · obtain ⟨d, hd, hn⟩ := expired_some hx
      exact ⟨d, now, hd, hn, .inl ⟨b, rfl⟩⟩
    · exfalso
      unfold Stream.handleData at h
      split at h
      · rename_i e hp; exact h2 e hp
      · rename_i hp; exact h1 hp
      · split at h
        · rename_i s' hs
          have := data_effect (CI := CI) (CA := CA) s b now
          unfold Stream.handleData at this
          rw [hs] at this
          dsimp only at h
          have hp' : ∀ (t : Stream I A), DataEffect s t → (∀ e, t ≠ s.enterFailed e) → ∀ e, t.phase ≠ .failed e := by
            intro t ht hne e
            cases ht with
            | same h' => rw [h']; exact h2 e
            | fails e' he h' hp => exact absurd h' (hne e')
            | buffered b hb h' hp hd => rw [h']; exact h2 e
            | finished p h' hp => rw [h']; simp
            | request p h' hp => rw [h']; simp
            | pinged o h' hp => rw [h']; simp
          have hno : ∀ e, s' ≠ s.enterFailed e := by
            intro e he
            unfold Stream.handleDataInner at hs
            rw [if_neg hx] at hs
            split at hs
            · split at hs <;> first
                | (injection hs with hs; rw [← hs] at he; exact h2 e (by rw [he]; rfl))
                | (cases hs; done)
                | (split at hs <;> first
                    | (injection hs with hs; rw [← hs] at he; exact h2 e (by rw [he]; rfl))
                    | (cases hs; done))
            · split at hs
              · cases hs
              · unfold Stream.tryDecodeFrame at hs
                split at hs
                · cases hs
                · injection hs with hs
                  have := congrArg Stream.phase hs
                  rw [he] at this
                  exact h2 e this
                · simp only at hs
                  split at hs
                  · cases hs
                  · split at hs
                    · cases hs
                    · split at hs
                      · cases hs
                      · rename_i s1 hdp
                        split at hs
                        · cases hs
                        · injection hs with hs
                          subst hs
                          rcases dispatch_phase hdp with hq | hq | hq <;>
                            rw [he] at hq <;> cases hq
          refine hp' s' ?_ hno _ h
          split at this
          · rename_i e hq; exact absurd hq (h2 e)
          · rename_i hq; exact absurd hq h1
          · exact this
        · rename_i e he
          simp only [Stream.enterFailed, Phase.failed.injEq] at h
          subst h
          unfold Stream.handleDataInner at he
          rw [if_neg hx] at he
          split at he
          · split at he <;> first
              | (cases he; done)
              | (split at he <;> cases he)
          · split at he
            · cases he
            · unfold Stream.tryDecodeFrame at he
              split at he
              · cases he
              · cases he
              · simp only at he
                split at he
                · rename_i e hw
                  injection he with he
                  subst he
                  unfold wireDecode at hw
                  split at hw
                  · cases hw
                  · split at hw <;> cases hw
                · split at he
                  · cases he
                  · split at he
                    · rename_i e hdp
                      injection he with he
                      subst he
                      unfold Stream.dispatch at hdp
                      split at hdp
                      · split at hdp <;> cases hdp
                      · split at hdp
                        · split at hdp <;> cases hdp
                        · cases hdp
                      · cases hdp
                      · split at hdp
                        · cases hdp
                        · split at hdp
                          · cases hdp
                          · split at hdp <;> cases hdp
                        · cases hdp
                        · cases hdp
                      all_goals cases hdp
                    · split at he <;> cases he
  | pollTransmit now =>
    simp only [StreamRun.step] at h
    have := send_effect s now
    generalize (s.pollTransmit now).1 = s' at this h
    by_cases hx : s.expired now = true
    · obtain ⟨d, hd, hn⟩ := expired_some hx
      exact ⟨d, now, hd, hn, .inr (.inl rfl)⟩
    · exfalso
      cases this with
      | same h1' _ => rw [h1'] at h; exact h2 _ h
      | timeout d hd hn h' ho hp hd' =>
        apply hx
        unfold Stream.expired
        rw [hd]
        simpa using hn
      | sent p h' hp hd hp' =>
        rw [h'] at h
        rcases hp' with hp' | ⟨k, _, hp'⟩
        · rw [hp'] at h; exact h2 _ h
        · rw [hp'] at h; cases h
      | sentLast h' hp => rw [h'] at h; cases h
  | handleTimeout now =>
    simp only [StreamRun.step, Stream.handleTimeout] at h
    split at h
    · rename_i hx
      obtain ⟨d, hd, hn⟩ := expired_some hx
      exact ⟨d, now, hd, hn, .inr (.inr rfl)⟩
    · exact absurd h (h2 _)
  | pollEndpointEvent =>
    simp only [StreamRun.step, Stream.pollEndpointEvent] at h
    split at h <;> exact absurd h (h2 _)
  | pollEvent =>
    simp only [StreamRun.step, Stream.pollEvent] at h
    split at h <;> exact absurd h (h2 _)
  | loadResponse e d =>
    exact absurd h (h2 _)

end
end Verif
