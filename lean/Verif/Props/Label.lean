import Verif.Proof.LabelGate
/-
C07, C08: the cluster label keeps clusters apart, on datagrams and on streams.
-/
namespace Verif.Props
open Spec

/-! ## C07 label admission -/

/-- C07. A header is accepted, leaving `payload`, exactly when the wire bytes carry this node's
label (or carry none, where an unlabelled message is allowed). -/
theorem C07_header_accepts_iff (wire : Bytes) (label : Option Bytes) (skip : Bool)
    (payload : Bytes) :
    (∃ n, classifyHeader wire label skip = .accepted n ∧ wire.drop n = payload) ↔
      Admits isUtf8 label skip wire payload :=
  classify_admits wire label skip payload

/-- C07. A received datagram reaches the protocol exactly when it is admitted and non-empty; the
empty label means no label. -/
theorem C07_datagram_accepts_iff (raw : Bytes) (label : Option Bytes) (inner : Bytes) :
    decodeIncoming raw label = .ok inner ↔
      inner ≠ [] ∧ Admits isUtf8 (effectiveLabel label) false raw inner :=
  decodeIncoming_ok_iff raw label inner

/-- C07. Wrapping fails only for labels longer than 253 bytes or not UTF-8, and otherwise prepends
exactly the label header. -/
theorem C07_wrap_iff (inner : Bytes) (label : Option Bytes) (w : Bytes) :
    wrapLabel inner label = .ok w ↔
      (effectiveLabel label = none ∧ w = inner) ∨
      (∃ l, effectiveLabel label = some l ∧ l.length ≤ 253 ∧ isUtf8 l = true ∧
        w = labelHeader l ++ inner) := by
  simp only [wrapLabel]
  cases h : effectiveLabel label with
  | none => simp only [Except.ok.injEq, true_and, reduceCtorEq, false_and, exists_false, or_false]; exact eq_comm
  | some l =>
    simp only [validateLabel, MAX_LABEL_LEN, encodeLabelPrefix_eq]
    by_cases h1 : l.length > 253
    · simp [h1]; omega
    · by_cases h2 : isUtf8 l = true
      · have : l.length ≤ 253 := by omega
        simp only [h1, h2, this, if_false, Bool.not_true, Bool.false_eq_true, Except.ok.injEq, reduceCtorEq, false_and, false_or, Option.some.injEq]
        constructor
        · rintro rfl; exact ⟨l, rfl, this, h2, rfl⟩
        · rintro ⟨m, rfl, _, _, rfl⟩; rfl
      · simp [h1, h2]

/-- C07. What one node wraps, a node of the same label unwraps to the same message. A message never
starts with the label byte 12 (see C03, the tag table), and is never empty. -/
theorem C07_wrap_roundtrip (inner : Bytes) (label : Option Bytes) (w : Bytes)
    (hne : inner ≠ []) (htag : inner.head? ≠ some 12) (h : wrapLabel inner label = .ok w) :
    decodeIncoming w label = .ok inner := by
  rw [decodeIncoming_ok_iff]
  refine ⟨hne, ?_⟩
  rcases (C07_wrap_iff _ _ _).1 h with ⟨he, hw⟩ | ⟨l, he, hl, hu, hw⟩
  · rw [he]; subst hw; exact ⟨rfl, hne, htag⟩
  · rw [he]; exact .inl ⟨hw, hl, hu⟩

/-- C07. Clusters cannot hear each other: a message wrapped for one label is accepted by a node only
if that node's label is the same. -/
theorem C07_no_cross_talk (inner : Bytes) (l1 l2 : Option Bytes) (w x : Bytes)
    (htag : inner.head? ≠ some 12) (hw : wrapLabel inner l1 = .ok w)
    (hd : decodeIncoming w l2 = .ok x) : effectiveLabel l1 = effectiveLabel l2 ∧ x = inner := by
  obtain ⟨hx, ha⟩ := (decodeIncoming_ok_iff _ _ _).1 hd
  rcases (C07_wrap_iff _ _ _).1 hw with ⟨he, rfl⟩ | ⟨l, he, hl, hu, rfl⟩
  · cases h2 : effectiveLabel l2 with
    | none => rw [h2] at ha; exact ⟨he, ha.1.symm⟩
    | some m =>
      rw [h2] at ha
      simp only [Admits, Bool.false_eq_true, false_and, or_false] at ha
      obtain ⟨h, _⟩ := ha
      rw [h] at htag; simp [labelHeader] at htag
  · cases h2 : effectiveLabel l2 with
    | none => rw [h2] at ha; simp [Admits, labelHeader] at ha
    | some m =>
      rw [h2] at ha
      simp only [Admits, Bool.false_eq_true, false_and, or_false] at ha
      obtain ⟨h, hm, _⟩ := ha
      simp only [labelHeader, List.cons_append, List.cons.injEq, true_and] at h
      obtain ⟨hb, ht⟩ := h
      have hlen : l.length = m.length := by
        have := congrArg UInt8.toNat hb
        rw [UInt8.toNat_ofNat_lt (by omega), UInt8.toNat_ofNat_lt (by omega)] at this
        exact this
      obtain ⟨h3, h4⟩ := List.append_inj ht hlen
      subst h3
      exact ⟨he, h4.symm⟩

example : wrapLabel [8, 1, 7] (some [97, 98]) = .ok [12, 2, 97, 98, 8, 1, 7] := by decide +kernel
example : decodeIncoming [12, 2, 97, 98, 8, 1, 7] (some [97, 98]) = .ok [8, 1, 7] := by decide +kernel
example : decodeIncoming [12, 2, 97, 98, 8, 1, 7] (some [97, 99]) = .error (.label .mismatch) := by
  decide +kernel
example : decodeIncoming [12, 2, 97, 98, 8, 1, 7] none = .error (.label .doubleLabel) := by
  decide +kernel
example : decodeIncoming [8, 1, 7] (some [97, 98]) = .error (.label .mismatch) := by decide +kernel

/-! ## C08 the label gate on streams -/

/-- The record layer a connection starts with. -/
def startLabeled (role : GateRole) (label : Option Bytes) (skip : Bool) : LRun :=
  match role with
  | .dialer => { s := Labeled.newDialer label skip }
  | .acceptor => { s := Labeled.newAcceptor label skip }

theorem inv_of_start (role : GateRole) (label : Option Bytes) (skip : Bool) (ops : List LOp) :
    LInv (effectiveLabel label) skip role (LOp.received ops)
      ((startLabeled role label skip).run ops) := by
  cases role with
  | dialer => simpa [startLabeled] using (LInv.initDialer label skip).run ops
  | acceptor => simpa [startLabeled] using (LInv.initAcceptor label skip).run ops

/-- C08. On a labelled connection, however the transport splits the bytes and however reads, writes
and transmits interleave, the outcome is that of inspecting all received bytes at once. Accepted: the
application has been, or will be, handed exactly the bytes after the header. Undecided: it has been
handed nothing and under 255 bytes are held back. Rejected: the exchange has failed. -/
theorem C08_stream_verdict_chunking (role : GateRole) (label : Option Bytes) (skip : Bool)
    (l : Bytes) (hl : effectiveLabel label = some l) (ops : List LOp) :
    let r := (startLabeled role label skip).run ops
    let all := LOp.received ops
    match classifyHeader all (some l) skip with
    | .accepted n => r.failed = false ∧ r.delivered ++ (r.s.read).2 = all.drop n
    | .incomplete => r.failed = false ∧ r.delivered = [] ∧ (r.s.read).2 = [] ∧
        r.s.gate.inboundRaw = all ∧ all.length < 255
    | .rejected _ => r.failed = true := by
  have I := inv_of_start role label skip ops
  rw [hl] at I
  simp only
  cases hc : classifyHeader (LOp.received ops) (some l) skip with
  | accepted n =>
    have hf : ((startLabeled role label skip).run ops).failed = false := by
      cases h : ((startLabeled role label skip).run ops).failed with
      | false => rfl
      | true =>
        obtain ⟨_, _, _, _, e, he⟩ := I.fail h
        rw [hc] at he; cases he
    refine ⟨hf, ?_⟩
    cases hv : ((startLabeled role label skip).run ops).s.gate.validated with
    | false =>
      have := ((I.pend hf hv).2.2.2.1 l rfl).2
      rw [hc] at this; cases this
    | true =>
      have := I.ok hf hv
      simp only at this
      obtain ⟨m, hm, hd⟩ := this
      rw [hc] at hm; cases hm
      simp only [Labeled.read]
      rw [← hd]; simp
  | incomplete =>
    have hf : ((startLabeled role label skip).run ops).failed = false := by
      cases h : ((startLabeled role label skip).run ops).failed with
      | false => rfl
      | true =>
        obtain ⟨_, _, _, _, e, he⟩ := I.fail h
        rw [hc] at he; cases he
    cases hv : ((startLabeled role label skip).run ops).s.gate.validated with
    | true =>
      have := I.ok hf hv
      simp only at this
      obtain ⟨m, hm, hd⟩ := this
      rw [hc] at hm; cases hm
    | false =>
      obtain ⟨h1, h2, h3, h4, _⟩ := I.pend hf hv
      exact ⟨hf, h3, by simp [Labeled.read, h1, h2], (h4 l rfl).1, classify_incomplete_short _ _ _ hc⟩
  | rejected e =>
    cases h : ((startLabeled role label skip).run ops).failed with
    | true => rfl
    | false =>
      cases hv : ((startLabeled role label skip).run ops).s.gate.validated with
      | true =>
        have := I.ok h hv
        simp only at this
        obtain ⟨m, hm, hd⟩ := this
        rw [hc] at hm; cases hm
      | false =>
        have := ((I.pend h hv).2.2.2.1 l rfl).2
        rw [hc] at this; cases this

/-- C08. The application never sees a byte of a labelled stream unless the stream is admitted, and
then only bytes following the header, in order. -/
theorem C08_delivered_only_admitted (role : GateRole) (label : Option Bytes) (skip : Bool)
    (l : Bytes) (hl : effectiveLabel label = some l) (ops : List LOp)
    (hd : ((startLabeled role label skip).run ops).delivered ≠ []) :
    ∃ payload, Admits isUtf8 (some l) skip (LOp.received ops) payload ∧
      ((startLabeled role label skip).run ops).delivered <+: payload := by
  have I := inv_of_start role label skip ops
  have V := C08_stream_verdict_chunking role label skip l hl ops
  simp only at V
  rw [hl] at I
  cases hc : classifyHeader (LOp.received ops) (some l) skip with
  | accepted n =>
    rw [hc] at V
    refine ⟨_, (classify_admits _ _ _ _).1 ⟨n, hc, rfl⟩, ?_⟩
    exact ⟨_, V.2⟩
  | incomplete => rw [hc] at V; exact absurd V.2.1 hd
  | rejected e =>
    rw [hc] at V
    exact absurd (I.fail V).1 hd

/-- C08. A node without a label hands every received byte through unchanged and never fails. -/
theorem C08_unlabelled_transparent (role : GateRole) (label : Option Bytes) (skip : Bool)
    (hl : effectiveLabel label = none) (ops : List LOp) :
    let r := (startLabeled role label skip).run ops
    r.failed = false ∧ r.delivered ++ (r.s.read).2 = LOp.received ops ∧
      r.sent ++ (r.s.transmit).2 = r.written := by
  have I := inv_of_start role label skip ops
  rw [hl] at I
  simp only
  have hf : ((startLabeled role label skip).run ops).failed = false := by
    cases h : ((startLabeled role label skip).run ops).failed with
    | false => rfl
    | true => obtain ⟨_, _, l, h1, _⟩ := I.fail h; cases h1
  refine ⟨hf, ?_, by simpa [Labeled.transmit] using I.outn rfl⟩
  cases hv : ((startLabeled role label skip).run ops).s.gate.validated with
  | true =>
    have := I.ok hf hv
    simp only at this
    rw [← this]; simp [Labeled.read]
  | false =>
    obtain ⟨h1, h2, h3, _, h5⟩ := I.pend hf hv
    simp [Labeled.read, h1, h2, h3, h5 rfl]

/-- C08. A dialer announces the label exactly once, first; everything it sends is the header followed
by what the application wrote. -/
theorem C08_dialer_announces (label : Option Bytes) (skip : Bool) (l : Bytes)
    (hl : effectiveLabel label = some l) (ops : List LOp) :
    let r := (startLabeled .dialer label skip).run ops
    r.sent ++ (r.s.transmit).2 = labelHeader l ++ r.written := by
  have I := inv_of_start .dialer label skip ops
  rw [hl] at I
  simpa [Labeled.transmit] using I.out l rfl

/-- C08. An acceptor reveals its label only to a peer whose stream was admitted; before that it sends
nothing at all. -/
theorem C08_acceptor_silent_until_admitted (label : Option Bytes) (skip : Bool) (l : Bytes)
    (hl : effectiveLabel label = some l) (ops : List LOp) :
    let r := (startLabeled .acceptor label skip).run ops
    (r.sent = [] ∧ (r.s.transmit).2 = [] ∨
      (∃ p, Admits isUtf8 (some l) skip (LOp.received ops) p) ∧
        r.sent ++ (r.s.transmit).2 = labelHeader l ++ r.written) := by
  have I := inv_of_start .acceptor label skip ops
  have V := C08_stream_verdict_chunking .acceptor label skip l hl ops
  rw [hl] at I
  simp only at V ⊢
  have ho := I.out l rfl
  cases hv : ((startLabeled .acceptor label skip).run ops).s.gate.validated with
  | false =>
    left
    have hw := I.nowrite l rfl rfl hv
    rw [hv, hw] at ho
    simp at ho
    exact ⟨ho.1, by simpa [Labeled.transmit] using ho.2⟩
  | true =>
    rw [hv] at ho
    simp only [or_true, if_true] at ho
    by_cases hf : ((startLabeled .acceptor label skip).run ops).failed = true
    · -- a failed gate is never validated
      exfalso
      rw [(I.fail hf).2.1] at hv; cases hv
    · right
      have hf' : ((startLabeled .acceptor label skip).run ops).failed = false := by simpa using hf
      have := I.ok hf' hv
      simp only at this
      obtain ⟨n, hn, _⟩ := this
      exact ⟨⟨_, (classify_admits _ _ _ _).1 ⟨n, hn, rfl⟩⟩, by simpa [Labeled.transmit] using ho⟩

-- A labelled acceptor fed its label one byte at a time, with reads and writes in between.
example :
    let r := (startLabeled .acceptor (some [97, 98]) false).run
      [.recv [12], .read, .write [1], .transmit, .recv [2, 97], .transmit, .recv [98, 5], .read,
        .write [9], .recv [6], .transmit, .read]
    r.failed = false ∧ r.delivered = [5, 6] ∧ r.sent = [12, 2, 97, 98, 9] := by decide +kernel
example :
    ((startLabeled .acceptor (some [97, 98]) false).run
      [.recv [12], .recv [2, 97], .recv [99], .read]).failed = true := by decide +kernel

end Verif.Props
