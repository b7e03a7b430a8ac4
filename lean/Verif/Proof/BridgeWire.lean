import Verif.Proof.BridgeLife
import Verif.Proof.BridgeKin
import Verif.Spec.Driver
/-
What a bridge puts on the wire: the label header, then at most one sealed unit.
-/
namespace Verif
open Spec

/-- The header the pipe has queued so far. -/
def Labeled.head (l : Labeled) : Bytes :=
  if l.gate.prefixQueued then
    match l.gate.label with
    | some lb => encodeLabelPrefix lb
    | none => []
  else []

/-- What holds of every labelled pipe: its label, nothing waits at the gate, and the header is queued once. -/
structure LOk (label : Option Bytes) (l : Labeled) : Prop where
  label : l.gate.label = effectiveLabel label
  pre : l.gate.outboundPrefix = []
  dialer : l.gate.role = .dialer → l.gate.prefixQueued = true
  valid : l.gate.validated = true → l.gate.prefixQueued = true
  once : l.prefixEmitted = true → l.gate.prefixQueued = true

theorem header_eq {label : Option Bytes} {l : Labeled} (h : LOk label l) :
    header label = match l.gate.label with
      | some lb => encodeLabelPrefix lb
      | none => [] := by
  rw [h.label]
  cases label with
  | none => rfl
  | some b => cases b <;> rfl

theorem LOk.head_queued {label : Option Bytes} {l : Labeled} (h : LOk label l) (hq : l.gate.prefixQueued = true) :
    l.head = header label := by
  rw [header_eq h, Labeled.head, if_pos hq]

theorem LOk.head_prefix {label : Option Bytes} {l : Labeled} (h : LOk label l) : l.head <+: header label := by
  cases hq : l.gate.prefixQueued with
  | true => rw [h.head_queued hq]; exact List.prefix_refl _
  | false => rw [Labeled.head, if_neg (by simp [hq])]; exact List.nil_prefix

/-- A pipe that is done with its handshake has queued its header. -/
theorem LOk.head_open {label : Option Bytes} {l : Labeled} (h : LOk label l) (hh : l.isHandshaking = false) :
    l.head = header label := by
  unfold Labeled.isHandshaking LabelGate.isValidating at hh
  cases hq : l.gate.prefixQueued with
  | true => exact h.head_queued hq
  | false =>
    rw [header_eq h, Labeled.head, if_neg (by simp [hq])]
    have hv : l.gate.validated = false := by
      cases hv : l.gate.validated with
      | false => rfl
      | true => rw [h.valid hv] at hq; cases hq
    have hr : l.gate.role = .acceptor := by
      cases hr : l.gate.role with
      | acceptor => rfl
      | dialer => rw [h.dialer hr] at hq; cases hq
    rw [hv, hr] at hh
    cases hl : l.gate.label with
    | none => rfl
    | some lb => rw [hl] at hh; simp at hh

theorem LOk.newDialer (label : Option Bytes) (skip : Bool) :
    LOk label (.newDialer label skip) ∧ (Labeled.newDialer label skip).outbound = (Labeled.newDialer label skip).head := by
  unfold Labeled.newDialer Labeled.flushLabel LabelGate.newDialer LabelGate.newAcceptor LabelGate.queuePrefix
  simp only [Bool.false_eq_true, if_false, LabelGate.takePrefix, List.nil_append]
  cases he : effectiveLabel label with
  | none => exact ⟨⟨he.symm, rfl, fun _ => rfl, fun _ => rfl, fun _ => rfl⟩, rfl⟩
  | some lb =>
    rw [if_neg (by simp [encodeLabelPrefix])]
    exact ⟨⟨he.symm, rfl, fun _ => rfl, fun _ => rfl, fun _ => rfl⟩, rfl⟩

theorem LOk.newAcceptor (label : Option Bytes) (skip : Bool) :
    LOk label (.newAcceptor label skip) ∧ (Labeled.newAcceptor label skip).outbound = (Labeled.newAcceptor label skip).head :=
  ⟨⟨rfl, rfl, fun h => (by cases h), fun h => (by cases h), fun h => (by cases h)⟩, rfl⟩

/-- Receiving queues the header once. -/
theorem LOk.recv {label : Option Bytes} {l : Labeled} (h : LOk label l) (d : Bytes) :
    LOk label (l.recv d).1 ∧ ∃ p, (l.recv d).1.outbound = l.outbound ++ p ∧ (l.recv d).1.head = l.head ++ p := by
  have same : ∀ l' : Labeled, l'.gate.label = l.gate.label → l'.gate.outboundPrefix = l.gate.outboundPrefix →
      l'.gate.role = l.gate.role → l'.gate.prefixQueued = l.gate.prefixQueued → l'.gate.validated = l.gate.validated →
      l'.prefixEmitted = l.prefixEmitted → l'.outbound = l.outbound →
      LOk label l' ∧ ∃ p, l'.outbound = l.outbound ++ p ∧ l'.head = l.head ++ p := by
    intro l' e1 e2 e3 e4 e5 e6 e7
    refine ⟨⟨by rw [e1]; exact h.label, by rw [e2]; exact h.pre, by rw [e3, e4]; exact h.dialer,
      by rw [e4, e5]; exact h.valid, by rw [e4, e6]; exact h.once⟩, [], by simp [e7], ?_⟩
    simp [Labeled.head, e4, e1]
  have queue : ∀ (l' : Labeled) (g : LabelGate), l'.gate = g.queuePrefix → g.label = l.gate.label →
      g.outboundPrefix = l.gate.outboundPrefix → g.role = l.gate.role → g.prefixQueued = l.gate.prefixQueued →
      l'.prefixEmitted = l.prefixEmitted → l'.outbound = l.outbound →
      LOk label l'.flushLabel ∧ ∃ p, l'.flushLabel.outbound = l.outbound ++ p ∧ l'.flushLabel.head = l.head ++ p := by
    intro l' g e0 e1 e2 e3 e4 e5 e6
    by_cases hq : l.gate.prefixQueued = true
    · have e0' : l'.gate = g := by rw [e0, LabelGate.queuePrefix, if_pos (by rw [e4]; exact hq)]
      have hz : l'.gate.outboundPrefix = [] := by rw [e0', e2]; exact h.pre
      have hq' : l'.gate.prefixQueued = true := by rw [e0', e4]; exact hq
      have hl' : l'.gate.label = l.gate.label := by rw [e0', e1]
      unfold Labeled.flushLabel
      by_cases hp : l'.prefixEmitted = true
      · rw [if_pos hp]
        exact ⟨⟨by rw [hl']; exact h.label, hz, fun _ => hq', fun _ => hq', fun _ => hq'⟩, [], by simp [e6],
          by simp [Labeled.head, hq, hq', hl']⟩
      · rw [if_neg hp]
        simp only [LabelGate.takePrefix, hz, List.length_nil, if_true]
        exact ⟨⟨by simp only [hl']; exact h.label, rfl, fun _ => hq', fun _ => hq', fun _ => hq'⟩, [], by simp [e6],
          by simp [Labeled.head, hq, hq', hl']⟩
    · have hq0 : l.gate.prefixQueued = false := by simpa using hq
      have hpe : l'.prefixEmitted = false := by
        rw [e5]
        cases hp : l.prefixEmitted with
        | false => rfl
        | true => exact absurd (h.once hp) hq
      have e0' : l'.gate = { g with
          outboundPrefix := match g.label with
            | some lb => g.outboundPrefix ++ encodeLabelPrefix lb
            | none => g.outboundPrefix
          prefixQueued := true } := by rw [e0, LabelGate.queuePrefix, if_neg (by rw [e4]; exact hq)]; rfl
      have hh : l.head = [] := by rw [Labeled.head, if_neg hq]
      unfold Labeled.flushLabel
      rw [if_neg (by simp [hpe])]
      simp only [LabelGate.takePrefix, e0', e1]
      cases hl : l.gate.label with
      | none =>
        have hz : g.outboundPrefix = [] := by rw [e2]; exact h.pre
        simp only [hz, List.length_nil, if_true]
        exact ⟨⟨hl.symm.trans h.label, rfl, fun _ => rfl, fun _ => rfl, fun _ => rfl⟩, [], by simp [e6],
          by simp [hh, Labeled.head, e1, hl]⟩
      | some lb =>
        have hz : g.outboundPrefix = [] := by rw [e2]; exact h.pre
        simp only [hz, List.nil_append]
        rw [if_neg (by simp [encodeLabelPrefix])]
        exact ⟨⟨hl.symm.trans h.label, rfl, fun _ => rfl, fun _ => rfl, fun _ => rfl⟩, encodeLabelPrefix lb,
          by simp [e6], by rw [hh]; simp [Labeled.head]⟩
  unfold Labeled.recv
  simp only []
  split
  · unfold Labeled.consumeLabel
    simp only []
    split
    · exact same _ rfl rfl rfl rfl rfl rfl rfl
    · unfold LabelGate.consumeInbound
      cases hl : l.gate.label with
      | none =>
        simp only []
        exact queue _ _ rfl hl.symm rfl rfl rfl rfl rfl
      | some lb =>
        simp only []
        split
        · next g t heq =>
          split at heq
          · obtain ⟨h1, _⟩ := Prod.mk.inj heq
            exact queue _ _ h1.symm hl.symm rfl rfl rfl rfl rfl
          · simp at heq
          · simp at heq
        · next g heq =>
          split at heq
          · simp at heq
          · obtain ⟨h1, _⟩ := Prod.mk.inj heq
            subst h1
            exact same _ hl.symm rfl rfl rfl rfl rfl rfl
          · simp at heq
        · next g heq =>
          split at heq
          · simp at heq
          · simp at heq
          · obtain ⟨h1, _⟩ := Prod.mk.inj heq
            subst h1
            exact same _ hl.symm rfl rfl rfl rfl rfl rfl
  · exact same _ rfl rfl rfl rfl rfl rfl rfl

/-- An open pipe puts nothing of its own on the wire. -/
theorem LOk.recv_open {label : Option Bytes} {l : Labeled} (h : LOk label l) (hh : l.isHandshaking = false) (d : Bytes) :
    (l.recv d).1.outbound = l.outbound ∧ (l.recv d).1.head = l.head := by
  obtain ⟨h1, p, h2, h3⟩ := h.recv d
  have h4 := h1.head_open (Bridge.recv_isHandshaking l d hh)
  rw [h.head_open hh, h4] at h3
  have hp : p = [] := List.append_cancel_left (as := header label) (by rw [← h3, List.append_nil])
  subst hp
  exact ⟨by simpa using h2, by rw [h4, h.head_open hh]⟩

theorem LOk.clear {label : Option Bytes} {l : Labeled} (h : LOk label l) : LOk label l.clearOutbound :=
  ⟨h.label, rfl, h.dialer, h.valid, h.once⟩

theorem LOk.read {label : Option Bytes} {l : Labeled} (h : LOk label l) : LOk label l.read.1 :=
  ⟨h.label, h.pre, h.dialer, h.valid, h.once⟩

namespace Bridge
variable {I A : Type} {T : TEnv} {M : Bytes → Prop} {In : Prop} {label : Option Bytes} {ring : Option Keyring} {w : Bytes}

/-- What a stream is about to say is one of the messages `M`. Only an exchange the peer opened (`In`) answers. -/
structure Due (B : Backends) (M : Bytes → Prop) (In : Prop) (pre : Bool) (s : Stream I A) : Prop where
  idle : s.phase = .inAwaiting → s.outputBuf = []
  side : (s.phase = .inAwaiting ∨ s.phase = .inSending) → In
  raw : (s.phase = .inAwaiting ∨ ∃ k, s.phase = .outSending k) → pre = false
  out : s.outputBuf = [] ∨ ∃ m, s.outputBuf = [m] ∧ (pre = false → M m) ∧ (pre = true → ∃ cmp m', M m' ∧ m = compressPayload B cmp m')

/-- What a bridge that `w` was collected from has put on the wire: the header, and one unit once it has sent. A failed
bridge has nothing left to send. -/
structure Wire (B : Backends) (M : Bytes → Prop) (In : Prop) (label : Option Bytes) (ring : Option Keyring) (w : Bytes) (b : Bridge I A) : Prop where
  pipe : LOk label b.records
  dead : b.isFailed = true → b.records.outbound = []
  fresh : b.isFailed = false → b.sentAny = false → w ++ b.records.outbound = b.records.head
  full : b.isFailed = false → b.sentAny = true → ∃ u, SealedUnit B M ring u ∧ w ++ b.records.outbound = header label ++ u
  due : b.isFailed = false → ∀ s, b.stream = some s → Due B M In b.precompressed s
  bare : b.isFailed = false → b.stream = none → b.precompressed = false

/-- What else is known of such a bridge. -/
structure Able (ring : Option Keyring) (b : Bridge I A) : Prop where
  alive : ∀ s, b.stream = some s → b.isFailed = false → ∃ p0 n, Alive p0 n b s
  opened : b.stream ≠ none → b.records.isHandshaking = false
  ring : b.isFailed = false → b.ring = ring
  began : b.finSent = true → b.isFailed = false → b.stream ≠ none

/-- The send half is closed. -/
def Shut (b : Bridge I A) : Prop := b.finSent = true ∨ b.isFailed = true

/-- Nothing new is written. -/
def Still (b b' : Bridge I A) : Prop := b.records.outbound = [] → b'.records.outbound = []

theorem Wire.same {B : Backends} {b b' : Bridge I A} (h : Wire B M In label ring w b) (e1 : b'.records = b.records)
    (e2 : b'.isFailed = b.isFailed) (e3 : b'.sentAny = b.sentAny) (e4 : b'.stream = b.stream)
    (e5 : b'.precompressed = b.precompressed) : Wire B M In label ring w b' :=
  ⟨by rw [e1]; exact h.pipe, by rw [e1, e2]; exact h.dead, by rw [e1, e2, e3]; exact h.fresh,
    by rw [e1, e2, e3]; exact h.full, by rw [e2, e4, e5]; exact h.due, by rw [e2, e4, e5]; exact h.bare⟩

/-- The stream changes. -/
theorem Wire.turn {B : Backends} {b b' : Bridge I A} {s : Stream I A} (h : Wire B M In label ring w b) (e1 : b'.records = b.records)
    (e2 : b'.isFailed = b.isFailed) (e3 : b'.sentAny = b.sentAny) (e4 : b'.stream = some s)
    (hd : b'.isFailed = false → Due B M In b'.precompressed s) : Wire B M In label ring w b' :=
  ⟨by rw [e1]; exact h.pipe, by rw [e1, e2]; exact h.dead, by rw [e1, e2, e3]; exact h.fresh,
    by rw [e1, e2, e3]; exact h.full, fun hf s' hs' => by rw [e4] at hs'; cases hs'; exact hd hf,
    fun _ hn => by rw [e4] at hn; cases hn⟩

theorem Wire.again {B : Backends} {b b' : Bridge I A} (h : Wire B M In label ring w b) (e1 : b'.records = b.records)
    (e2 : b'.isFailed = b.isFailed) (e3 : b'.sentAny = b.sentAny)
    (hd : b'.isFailed = false → ∀ s, b'.stream = some s → Due B M In b'.precompressed s) (hn : b'.stream ≠ none) : Wire B M In label ring w b' :=
  ⟨by rw [e1]; exact h.pipe, by rw [e1, e2]; exact h.dead, by rw [e1, e2, e3]; exact h.fresh,
    by rw [e1, e2, e3]; exact h.full, hd, fun _ hx => absurd hx hn⟩

/-- A bridge that fails drops what it had to say. -/
theorem Wire.fail' {B : Backends} {b : Bridge I A} (hp : LOk label b.records) (hd : b.isFailed = true → b.records.outbound = [])
    (r : LinkFail) : Wire B M In label ring w (b.fail r) := by
  have hf := fail_failed b r
  refine ⟨?_, fun _ => ?_, fun h => (by rw [hf] at h; cases h), fun h => (by rw [hf] at h; cases h),
    fun h => (by rw [hf] at h; cases h), fun h => (by rw [hf] at h; cases h)⟩
  · unfold fail; split
    · exact hp
    · exact hp.clear
  · unfold fail; split
    · next h => exact hd h
    · rfl

theorem Wire.fail {B : Backends} {b : Bridge I A} (h : Wire B M In label ring w b) (r : LinkFail) :
    Wire B M In label ring w (b.fail r) := .fail' h.pipe h.dead r

theorem fail_still (b : Bridge I A) (r : LinkFail) : Still b (b.fail r) := by
  intro h
  unfold Bridge.fail; split
  · exact h
  · rfl

theorem Wire.failWithRetire' {B : Backends} {b : Bridge I A} (hp : LOk label b.records)
    (hd : b.isFailed = true → b.records.outbound = []) (r : LinkFail) : Wire B M In label ring w (b.failWithRetire r) :=
  .fail' (b := b.retire) hp.read hd r

theorem failWithRetire_still (b : Bridge I A) (r : LinkFail) : Still b (b.failWithRetire r) :=
  fun h => fail_still b.retire r h

theorem Wire.closeSend {B : Backends} {b b' : Bridge I A} {s : Stream I A} (h : Wire B M In label ring w b)
    (hc : CloseSend b s b') : Wire B M In label ring w b' ∧ Still b b' := by
  cases hc with
  | failed => exact ⟨.failWithRetire' h.pipe h.dead _, failWithRetire_still _ _⟩
  | open_ => exact ⟨h, fun h => h⟩
  | closed hf hn hbf hd =>
    have e1 : (observeSendFin { b with finSent := true }).records = b.records := by unfold observeSendFin; split <;> rfl
    have e2 : (observeSendFin { b with finSent := true }).sentAny = b.sentAny := by unfold observeSendFin; split <;> rfl
    have e4 : (observeSendFin { b with finSent := true }).stream = b.stream := by unfold observeSendFin; split <;> rfl
    have e5 : (observeSendFin { b with finSent := true }).precompressed = b.precompressed := by unfold observeSendFin; split <;> rfl
    have e3 : (observeSendFin { b with finSent := true }).isFailed = b.isFailed := by
      have : ({ b with finSent := true } : Bridge I A).isFailed = b.isFailed := rfl
      rw [← this]
      unfold observeSendFin
      split
      · next hp => simp [isFailed, show b.phase = _ from hp]
      · next hp => simp [isFailed, show b.phase = _ from hp]
      · rfl
    exact ⟨h.same e1 e3 e2 e4 e5, fun h => by rw [e1]; exact h⟩

/-- The stream hands out all it has to say at once. -/
theorem Due.poll {B : Backends} {pre : Bool} {s s' : Stream I A} {now : Nat} {o : Option (List Bytes)} (h : Due B M In pre s)
    (hr : s.pollTransmit now = (s', o)) :
    (s'.isFailed = false → Due B M In pre s') ∧
      (∀ chunks, o = some chunks → (pre = false → M chunks.flatten) ∧
        (pre = true → ∃ cmp m, M m ∧ chunks.flatten = compressPayload B cmp m)) := by
  have hout : s.outputBuf ≠ [] → (pre = false → M s.outputBuf.flatten) ∧
        (pre = true → ∃ cmp m, M m ∧ s.outputBuf.flatten = compressPayload B cmp m) := by
    intro hn
    rcases h.out with e | ⟨m, e, h1, h2⟩
    · exact absurd e hn
    · rw [e]; simpa using ⟨h1, h2⟩
  unfold Stream.pollTransmit at hr
  split at hr
  · cases hr; exact ⟨fun _ => h, fun _ hc => by cases hc⟩
  · cases hr; exact ⟨fun _ => h, fun _ hc => by cases hc⟩
  · split at hr
    · cases hr; exact ⟨fun hf => (by cases hf), fun _ hc => (by cases hc)⟩
    · split at hr
      · cases hr; exact ⟨fun _ => h, fun _ hc => by cases hc⟩
      · next hn =>
        simp only [] at hr
        split at hr <;> cases hr
        · exact ⟨fun _ => ⟨fun _ => rfl, fun hx => (by rcases hx with hx | hx <;> cases hx), fun hx => (by rcases hx with hx | ⟨_, hx⟩ <;> cases hx), .inl rfl⟩, fun _ hc => by cases hc; exact hout hn⟩
        · exact ⟨fun _ => ⟨fun _ => rfl, fun hx => (by rcases hx with hx | hx <;> cases hx), fun hx => (by rcases hx with hx | ⟨_, hx⟩ <;> cases hx), .inl rfl⟩, fun _ hc => by cases hc; exact hout hn⟩
        · exact ⟨fun _ => ⟨fun _ => rfl, fun hx => (by rcases hx with hx | hx <;> cases hx), fun hx => (by rcases hx with hx | ⟨_, hx⟩ <;> cases hx), .inl rfl⟩, fun _ hc => by cases hc; exact hout hn⟩
        · exact ⟨fun _ => ⟨fun _ => rfl, h.side, h.raw, .inl rfl⟩, fun _ hc => by cases hc; exact hout hn⟩

theorem unit_sealed {b : Bridge I A} {body u : Bytes} (h1 : b.precompressed = false → M body)
    (h2 : b.precompressed = true → ∃ cmp m, M m ∧ body = compressPayload T.B cmp m) (h : b.unit T body = .ok u) :
    SealedUnit T.B M b.ring u := by
  unfold unit at h
  simp only [] at h
  split at h
  · cases h
  · next fr hfr =>
    cases h
    cases hp : b.precompressed with
    | false =>
      rw [hp] at hfr
      exact ⟨_, _, _, fr, h1 hp, hfr, rfl⟩
    | true =>
      obtain ⟨cmp, m, hm, e⟩ := h2 hp
      rw [hp, if_pos rfl, e] at hfr
      exact ⟨_, _, _, fr, hm, hfr, rfl⟩

theorem Due.none_ {pre : Bool} {B : Backends} {s : Stream I A} (h : Due B M In pre s) {rest : List (PayloadEvent I A)} :
    Due B M In pre ({ s with endpointEvents := rest } : Stream I A) := ⟨h.idle, h.side, h.raw, h.out⟩

variable [DecidableEq I]

/-- A stream that has sent has nothing more to send. -/
theorem sent_silent {p0 : Phase} {n : Nat} {s s' : Stream I A} {now : Nat} {chunks : List Bytes} (h : Life p0 n s)
    (hs : Sent s) (hr : s.pollTransmit now = (s', some chunks)) : False := by
  have hpl := h.poll now
  rw [hr] at hpl
  rcases hpl with ⟨_, _, hx⟩ | ⟨h1, _⟩ | ⟨_, _, _, _, hph⟩
  · cases hx
  · cases h1
  · unfold Sent at hs
    rcases hph with hph | ⟨k, hph⟩ <;> rw [hph] at hs <;> exact hs

theorem Wire.pumpOut {b b' : Bridge I A} {now : Nat} (h : Wire T.B M In label ring w b) (ha : Able ring b)
    (hp : PumpOut T b now b') : Wire T.B M In label ring w b' ∧ (Shut b → Still b b') := by
  cases hp with
  | idle => exact ⟨h, fun _ h => h⟩
  | expired => exact ⟨h.fail _, fun _ => fail_still _ _⟩
  | failed => exact ⟨.failWithRetire' h.pipe h.dead _, fun _ => failWithRetire_still _ _⟩
  | late => exact ⟨.failWithRetire' h.pipe h.dead _, fun _ => failWithRetire_still _ _⟩
  | quiet s s' _ hs hbf hsf _ hr hc =>
    cases hsf' : s'.isFailed with
    | true =>
      cases hc with
      | failed =>
        exact ⟨.failWithRetire' (b := { b with stream := some s' }) h.pipe h.dead _,
          fun _ => failWithRetire_still ({ b with stream := some s' } : Bridge I A) _⟩
      | open_ hx => rw [hsf'] at hx; cases hx
      | closed hx => rw [hsf'] at hx; cases hx
    | false =>
      have h1 : Wire T.B M In label ring w ({ b with stream := some s' } : Bridge I A) :=
        h.turn rfl rfl rfl rfl (fun _ => ((h.due hbf s hs).poll hr).1 hsf')
      obtain ⟨g1, g2⟩ := h1.closeSend hc
      exact ⟨g1, fun _ => g2⟩
  | broken s s' chunks e hs hbf hsf hr hu =>
    refine ⟨.failWithRetire' (b := { b with stream := some s', sentAny := true }) h.pipe h.dead _, fun _ => ?_⟩
    exact failWithRetire_still ({ b with stream := some s', sentAny := true } : Bridge I A) _
  | sent s s' chunks u _ hs hbf hsf _ hr hu hc =>
    obtain ⟨p0, n, hal⟩ := ha.alive s hs hbf
    have hns : ¬ Sent s := fun hsent => sent_silent hal.life hsent hr
    have hsa : b.sentAny = false := by
      cases hsa : b.sentAny with
      | false => rfl
      | true => exact absurd (hal.any hsa) hns
    have hfr := h.fresh hbf hsa
    have hop := h.pipe.head_open (ha.opened (by rw [hs]; simp))
    have hdue := (h.due hbf s hs).poll hr
    have hun := unit_sealed (hdue.2 _ rfl).1 (hdue.2 _ rfl).2 hu
    have hsf' : s'.isFailed = false := by
      have hpl := hal.life.poll now
      rw [hr] at hpl
      cases hx : s'.isFailed with
      | false => rfl
      | true =>
        exfalso
        unfold Stream.pollTransmit at hr
        split at hr
        · cases hr
        · cases hr
        · split at hr
          · cases hr
          · split at hr
            · cases hr
            · simp only [] at hr
              split at hr <;> cases hr <;> (try cases hx)
              exact absurd (hsf.symm.trans hx) (by simp)
    have h1 : Wire T.B M In label ring w ({ b with stream := some s', sentAny := true, records := b.records.write u, sealed := b.sealed + 1 } : Bridge I A) := by
      refine ⟨⟨h.pipe.label, h.pipe.pre, h.pipe.dialer, h.pipe.valid, h.pipe.once⟩, fun hf => ?_, fun _ hf => (by cases hf), fun _ _ => ⟨u, ?_, ?_⟩,
        fun _ s2 hs2 => (by cases hs2; exact hdue.1 hsf'), fun _ hn => (by cases hn)⟩
      · have hf : b.isFailed = true := hf
        rw [hbf] at hf; cases hf
      · rw [← ha.ring hbf]; exact hun
      · show w ++ (b.records.outbound ++ u) = _
        rw [← List.append_assoc, hfr, hop]
    obtain ⟨g1, g2⟩ := h1.closeSend hc
    refine ⟨g1, fun hsh => ?_⟩
    rcases hsh with hsh | hsh
    · exact absurd (hal.fin hsh) hns
    · rw [hbf] at hsh; cases hsh

variable {CI : DataCodec I} {CA : DataCodec A}

/-- Receiving. -/
theorem Wire.recv {b : Bridge I A} (h : Wire T.B M In label ring w b) (d : Bytes) (hf : b.isFailed = false) (l : Labeled)
    (hl : l.gate = (b.records.recv d).1.gate) (ho : l.outbound = (b.records.recv d).1.outbound)
    (he : l.prefixEmitted = (b.records.recv d).1.prefixEmitted)
    (hn : b.sentAny = true → b.records.isHandshaking = false) :
    Wire T.B M In label ring w ({ b with records := l } : Bridge I A) := by
  obtain ⟨h1, p, h2, h3⟩ := h.pipe.recv d
  have hpipe : LOk label l := ⟨by rw [hl]; exact h1.label, by rw [hl]; exact h1.pre, by rw [hl]; exact h1.dialer,
    by rw [hl]; exact h1.valid, by rw [hl, he]; exact h1.once⟩
  have hhead : l.head = (b.records.recv d).1.head := by unfold Labeled.head; rw [hl]
  refine ⟨hpipe, fun hf' => ?_, fun _ hs => ?_, fun _ hs => ?_, h.due, h.bare⟩
  · have hf' : b.isFailed = true := hf'
    rw [hf] at hf'; cases hf'
  · show w ++ l.outbound = l.head
    rw [ho, hhead, h2, h3, ← List.append_assoc, h.fresh hf hs]
  · obtain ⟨u, h4, h5⟩ := h.full hf hs
    refine ⟨u, h4, ?_⟩
    show w ++ l.outbound = _
    rw [ho, (h.pipe.recv_open (hn hs) d).1]
    exact h5

theorem Due.data {B : Backends} {pre : Bool} (hA : In → ∀ seq m, encodeTyped CI CA (.ack seq []) = .ok m → M m) {s s' : Stream I A} {d : Bytes}
    {now : Nat} (h : Due B M In pre s) (hd : s.handleData CI CA d now = (s', none)) : Due B M In pre s' := by
  unfold Stream.handleData at hd
  split at hd
  · cases hd; exact h
  · split at hd <;> cases hd
    exact h
  · split at hd
    · next s1 hi =>
      cases hd
      unfold Stream.handleDataInner at hi
      split at hi
      · cases hi
      · split at hi
        · split at hi <;> (try split at hi) <;> cases hi <;> exact h
        · split at hi
          · cases hi
          · unfold Stream.tryDecodeFrame at hi
            split at hi
            · cases hi
            · injection hi with hi
              subst hi
              exact ⟨h.idle, h.side, h.raw, h.out⟩
            · simp only at hi
              split at hi
              · cases hi
              · split at hi
                · cases hi
                · split at hi
                  · cases hi
                  · next s2 hdp =>
                    split at hi
                    · cases hi
                    · injection hi with hi
                      subst hi
                      unfold Stream.dispatch at hdp
                      simp only [] at hdp
                      split at hdp
                      · split at hdp <;> cases hdp
                        exact ⟨fun hx => (by cases hx), fun hx => (by first | exact h.side (.inl hph) | (rcases hx with hx | hx <;> cases hx)), fun hx => (by rcases hx with hx | ⟨_, hx⟩ <;> cases hx), h.out⟩
                      · split at hdp
                        · split at hdp <;> cases hdp
                          exact ⟨fun hx => (by cases hx), fun hx => (by first | exact h.side (.inl hph) | (rcases hx with hx | hx <;> cases hx)), fun hx => (by rcases hx with hx | ⟨_, hx⟩ <;> cases hx), h.out⟩
                        · cases hdp
                      · cases hdp; exact ⟨h.idle, h.side, h.raw, h.out⟩
                      · next hph =>
                        have hph : s.phase = .inAwaiting := hph
                        split at hdp
                        · cases hdp
                          exact ⟨fun hx => (by cases hx), fun hx => (by first | exact h.side (.inl hph) | (rcases hx with hx | hx <;> cases hx)), fun hx => (by rcases hx with hx | ⟨_, hx⟩ <;> cases hx), h.out⟩
                        · split at hdp
                          · cases hdp
                          · split at hdp
                            · cases hdp
                            · next enc henc =>
                              cases hdp
                              refine ⟨fun hx => (by cases hx), fun _ => h.side (.inl hph), fun hx => (by rcases hx with hx | ⟨_, hx⟩ <;> cases hx), .inr ⟨enc, ?_, fun _ => hA (h.side (.inl hph)) _ _ henc, fun hp => ?_⟩⟩
                              · simp [h.idle hph]
                              · rw [h.raw (.inl hph)] at hp; cases hp
                        · cases hdp
                          exact ⟨fun hx => (by cases hx), fun hx => (by first | exact h.side (.inl hph) | (rcases hx with hx | hx <;> cases hx)), fun hx => (by rcases hx with hx | ⟨_, hx⟩ <;> cases hx), h.out⟩
                        · cases hdp
                      · cases hdp
                      · cases hdp
                      · cases hdp
                      · cases hdp
    · cases hd

theorem Due.drain {B : Backends} {pre : Bool} (hA : In → ∀ seq m, encodeTyped CI CA (.ack seq []) = .ok m → M m) {rg : Option Keyring} {max now : Nat}
    (fuel : Nat) : ∀ {s s' : Stream I A} {buf left : Bytes}, Due B M In pre s →
      drainUnits CI CA T rg max now fuel s buf = (s', left, .all) → Due B M In pre s' := by
  induction fuel with
  | zero =>
    intro s s' buf left h hd
    simp only [drainUnits, Prod.mk.injEq] at hd
    rw [← hd.1]; exact h
  | succ fuel ih =>
    intro s s' buf left h hd
    simp only [drainUnits] at hd
    split at hd
    · simp only [Prod.mk.injEq] at hd
      cases hd.2.2
    · simp only [Prod.mk.injEq] at hd
      rw [← hd.1]; exact h
    · split at hd
      · simp only [Prod.mk.injEq] at hd
        cases hd.2.2
      · next hr => exact ih (h.data hA hr) hd

theorem Wire.pumpIn (hA : In → ∀ seq m, encodeTyped CI CA (.ack seq []) = .ok m → M m) {b : Bridge I A} {s : Stream I A} (h : Wire T.B M In label ring w b) (hs : b.stream = some s)
    (hop : b.records.isHandshaking = false) (input : Bytes) (eof : Bool) (now : Nat) :
    Wire T.B M In label ring w (b.pumpIn CI CA T s input eof now) ∧ Still b (b.pumpIn CI CA T s input eof now) := by
  cases ht : b.isTerminal with
  | true => unfold Bridge.pumpIn; rw [if_pos ht]; exact ⟨h, fun h => h⟩
  | false =>
    have hf : b.isFailed = false := by
      cases hf : b.isFailed with
      | false => rfl
      | true => rw [terminal_of_failed hf] at ht; cases ht
    obtain ⟨ho, hh⟩ := h.pipe.recv_open hop input
    have h1 := (h.pipe.recv input).1
    have hp := pumpIn_cases CI CA T b s input eof now ht
    generalize b.pumpIn CI CA T s input eof now = b' at hp
    have dead : ∀ b1 : Bridge I A, LOk label b1.records → b1.isFailed = b.isFailed → b1.records.outbound = b.records.outbound → ∀ r,
        Wire T.B M In label ring w (b1.failWithRetire r) ∧ Still b (b1.failWithRetire r) := by
      intro b1 e1 e2 e3 r
      refine ⟨.failWithRetire' e1 (fun hx => by rw [e2, hf] at hx; cases hx) r, fun hx => ?_⟩
      exact failWithRetire_still b1 r (by rw [e3]; exact hx)
    have live : ∀ (b1 : Bridge I A) (s1 : Stream I A), b1.records = (b.records.recv input).1.read.1 → b1.isFailed = b.isFailed →
        b1.sentAny = b.sentAny → b1.stream = some s1 → b1.precompressed = b.precompressed →
        Due T.B M In b.precompressed s1 → Wire T.B M In label ring w b1 ∧ Still b b1 := by
      intro b1 s1 e1 e2 e3 e4 e5 hdue
      have hw := h.recv input hf ((b.records.recv input).1.read.1) rfl rfl rfl (fun _ => hop)
      refine ⟨hw.turn e1 e2 e3 e4 (fun _ => by rw [e5]; exact hdue), fun hx => ?_⟩
      rw [e1]
      show (b.records.recv input).1.outbound = []
      rw [ho]; exact hx
    cases hp with
    | rejected => exact dead { b with records := (b.records.recv input).1 } h1 rfl ho _
    | bad s' left d _ hd _ => exact dead { b with records := (b.records.recv input).1.read.1, stream := some s', accum := left } h1.read rfl ho _
    | cut s' left _ hd _ _ => exact dead { b with records := (b.records.recv input).1.read.1, stream := some s', accum := left } h1.read rfl ho _
    | more s' left _ hd _ => exact live _ s' rfl rfl rfl rfl rfl ((h.due hf s hs).drain hA _ hd)
    | refused s' s'' e _ hd _ hh => exact dead { b with records := (b.records.recv input).1.read.1, stream := some s'', accum := [] } h1.read rfl ho _
    | ended s' s'' _ hd _ hh =>
      generalize hb1 : ({ b with records := (b.records.recv input).1.read.1, stream := some s'', accum := [] } : Bridge I A) = b1
      have e0 : b1.records = (b.records.recv input).1.read.1 ∧ b1.sentAny = b.sentAny ∧ b1.phase = b.phase := by
        subst hb1; exact ⟨rfl, rfl, rfl⟩
      have e4 : b1.stream = some s'' ∧ b1.precompressed = b.precompressed := by subst hb1; exact ⟨rfl, rfl⟩
      have e5 : b1.observeRecvFin.stream = b1.stream ∧ b1.observeRecvFin.precompressed = b1.precompressed := by
        unfold observeRecvFin; split <;> exact ⟨rfl, rfl⟩
      refine live _ s'' ?_ ?_ ?_ (e5.1.trans e4.1) (e5.2.trans e4.2) (((h.due hf s hs).drain hA _ hd).data hA hh)
      · rw [← e0.1]; unfold observeRecvFin; split <;> rfl
      · have : b1.isFailed = b.isFailed := isFailed_congr e0.2.2
        rw [← this]
        unfold observeRecvFin
        split
        · next hp => simp [isFailed, hp]
        · next hp => simp [isFailed, hp]
        · rfl
      · rw [← e0.2.1]; unfold observeRecvFin; split <;> rfl

theorem Wire.intake {b : Bridge I A} (h : Wire T.B M In label ring w b) (hf : b.isFailed = false) (hn : b.sentAny = false)
    (d : Bytes) : Wire T.B M In label ring w (b.intakeHandshaking d) := by
  have h1 : Wire T.B M In label ring w ({ b with records := (b.records.recv d).1 } : Bridge I A) :=
    h.recv d hf _ rfl rfl rfl (fun hs => by rw [hn] at hs; cases hs)
  unfold intakeHandshaking
  simp only []
  split
  · exact h1.fail _
  · exact h1

theorem Wire.feed (hA : In → ∀ seq m, encodeTyped CI CA (.ack seq []) = .ok m → M m) {b : Bridge I A} (h : Wire T.B M In label ring w b) (ha : Able ring b)
    (hb : b.stream = none → b.isFailed = false → b.sentAny = false) (d : Bytes) (now : Nat) :
    Wire T.B M In label ring w (b.feed CI CA T d now) ∧ (Shut b → Still b (b.feed CI CA T d now)) := by
  unfold Bridge.feed
  split
  · exact ⟨h, fun _ h => h⟩
  · next ht =>
    have hf : b.isFailed = false := by
      cases hf : b.isFailed with
      | false => rfl
      | true => exact absurd (terminal_of_failed hf) ht
    split
    · next hs =>
      have hno : ∀ b' : Bridge I A, Shut b → Still b b' := by
        rintro b' (hsh | hsh)
        · exact absurd hs (ha.began hsh hf)
        · rw [hf] at hsh; cases hsh
      refine ⟨?_, hno _⟩
      split
      · split
        · exact h.fail _
        · have h2 : Wire T.B M In label ring w ({ b with pendingEof := true } : Bridge I A) := h.same rfl rfl rfl rfl rfl
          exact h2.intake hf (hb hs hf) _
      · exact h.intake hf (hb hs hf) _
    · next s hs =>
      obtain ⟨g1, g2⟩ := h.pumpIn (CI := CI) (CA := CA) hA hs (ha.opened (by rw [hs]; simp)) d (d = []) now
      exact ⟨g1, fun _ => g2⟩

theorem Wire.replay (hA : In → ∀ seq m, encodeTyped CI CA (.ack seq []) = .ok m → M m) {b : Bridge I A} (h : Wire T.B M In label ring w b) (ha : Able ring b) (now : Nat) :
    Wire T.B M In label ring w (b.replay CI CA T now) ∧ (Shut b → Still b (b.replay CI CA T now)) := by
  unfold Bridge.replay
  split
  · exact ⟨h, fun _ h => h⟩
  · next s hs =>
    split
    · exact ⟨h, fun _ h => h⟩
    · obtain ⟨g1, g2⟩ := h.pumpIn (CI := CI) (CA := CA) hA hs (ha.opened (by rw [hs]; simp)) [] b.pendingEof now
      exact ⟨g1, fun _ => g2⟩

theorem Wire.transmit {b : Bridge I A} (h : Wire T.B M In label ring w b) :
    Wire T.B M In label ring (w ++ b.transmit.2) b.transmit.1 := by
  refine ⟨⟨h.pipe.label, h.pipe.pre, h.pipe.dialer, h.pipe.valid, h.pipe.once⟩, fun _ => rfl, fun hf hs => ?_, fun hf hs => ?_, h.due, h.bare⟩
  · show w ++ b.records.outbound ++ [] = b.records.head
    rw [List.append_nil]; exact h.fresh hf hs
  · obtain ⟨u, h1, h2⟩ := h.full hf hs
    refine ⟨u, h1, ?_⟩
    show w ++ b.records.outbound ++ [] = _
    rw [List.append_nil]; exact h2

variable [DecidableEq A] {cfg : Cfg I A} {env : Env I A}

/-- The bridge on which a response was loaded. -/
theorem respond_life {p0 : Phase} {n : Nat} {now : Nat} {e e' : Ep I A} {b : Bridge I A}
    {s : Stream I A} {ev : PayloadEvent I A} {rest : List (PayloadEvent I A)} {p : PushPull I A} {body : Bytes} {dl : Nat}
    (h : BLife p0 n b) (hs : b.stream = some s) (he : s.endpointEvents = ev :: rest)
    (hresp : e.handleStreamEvent cfg env (.payload ev) now = (e', some (.sendResponse p))) :
    BLife p0 (n + 1) ({ b with stream := some (({ s with endpointEvents := rest } : Stream I A).loadResponse body dl)
                               precompressed := true, deadline := dl } : Bridge I A) := by
  have hcnt := h.cnt
  simp only [evs, hs, he] at hcnt
  have hn : Cnt p0 (n + 1) rest := ⟨by have := hcnt.1; simp at this ⊢; omega, fun ev' h' => hcnt.2 ev' (List.mem_cons_of_mem _ h')⟩
  refine ⟨by simpa [evs, Stream.loadResponse] using hn, fun hf s2 hs2 => ?_⟩
  have hf : b.isFailed = false := hf
  cases hs2
  have ha := h.live hf s hs
  obtain ⟨hr, hlife, hph⟩ := ha.life.take he
  rcases hph with hph | ⟨_, hq⟩
  · refine ⟨?_, ha.any, ha.fin, ha.recv, ha.send⟩
    unfold Life at hlife ⊢
    simp only [Stream.loadResponse, hph] at hlife ⊢
    refine ⟨hlife.1, hlife.2.1, fun hc => absurd hr hc, hlife.2.2.2⟩
  · rw [response_request hresp] at hq; cases hq

theorem due_respond {p0 : Phase} {n : Nat} {pre : Bool} {cmp : CmpOptions} {now dl : Nat} {e e' : Ep I A} {s : Stream I A} {ev : PayloadEvent I A}
    {rest : List (PayloadEvent I A)} {p : PushPull I A} (h : Due T.B M In pre s) (hal : Life p0 n s)
    (he : s.endpointEvents = ev :: rest) (hresp : e.handleStreamEvent cfg env (.payload ev) now = (e', some (.sendResponse p)))
    (hR : In → M (Ep.encodeBytes env (.pushPull p))) :
    Due T.B M In true (({ s with endpointEvents := rest } : Stream I A).loadResponse
      (compressPayload T.B cmp (Ep.encodeBytes env (.pushPull p))) dl) := by
  rcases (hal.take he).2.2 with hph | ⟨_, hq⟩
  · have ho : s.outputBuf = [] := by
      unfold Life at hal
      simp only [hph] at hal
      exact hal.2.2.1 (by rw [he]; simp)
    have hphase : s.phase = .inSending := hph
    have hin : In := h.side (.inr hphase)
    refine ⟨fun hx => ?_, fun _ => hin, fun hx => ?_, .inr ⟨_, by simp [Stream.loadResponse, ho], fun hx => (by cases hx), fun _ => ⟨cmp, _, hR hin, rfl⟩⟩⟩
    · have hx : s.phase = .inAwaiting := hx
      rw [hphase] at hx; cases hx
    · have hx : s.phase = .inAwaiting ∨ ∃ k, s.phase = .outSending k := hx
      rw [hphase] at hx
      rcases hx with hx | ⟨_, hx⟩ <;> cases hx
  · rw [response_request hresp] at hq; cases hq

theorem Wire.commitOne (hR : In → ∀ (e : Ep I A) ev now e' p, e.handleStreamEvent cfg env (.payload ev) now = (e', some (.sendResponse p)) →
      M (Ep.encodeBytes env (.pushPull p))) {p0 : Phase} {n : Nat} {cmp : CmpOptions} {now : Nat} {e : Ep I A} {b : Bridge I A}
    {s : Stream I A} {ev : PayloadEvent I A} {rest : List (PayloadEvent I A)} {r : Ep I A × Bridge I A}
    (h : Wire T.B M In label ring w b) (ha : Able ring b) (hl : BLife p0 n b) (hs : b.stream = some s)
    (he : s.endpointEvents = ev :: rest) (hc : CommitOne cfg env T cmp now e b s ev rest r) :
    Wire T.B M In label ring w r.2 ∧ (Shut b → Still b r.2) := by
  cases hc with
  | quiet e' _ => exact ⟨h.turn rfl rfl rfl rfl (fun hf => (h.due hf s hs).none_), fun _ h => h⟩
  | close e' _ =>
    exact ⟨.failWithRetire' (b := { b with stream := some { s with endpointEvents := rest } }) h.pipe h.dead _,
      fun _ => failWithRetire_still ({ b with stream := some { s with endpointEvents := rest } } : Bridge I A) _⟩
  | respond e' p b' hresp hp =>
    have hl2 := respond_life (body := compressPayload T.B cmp (Ep.encodeBytes env (.pushPull p)))
      (dl := now + cfg.streamTimeout) hl hs he hresp
    revert hl2 hp
    generalize hb2 : ({ b with
      stream := some (({ s with endpointEvents := rest } : Stream I A).loadResponse (compressPayload T.B cmp (Ep.encodeBytes env (.pushPull p))) (now + cfg.streamTimeout))
      precompressed := true, deadline := now + cfg.streamTimeout } : Bridge I A) = b2
    intro hp hl2
    have hdue : b2.isFailed = false → ∀ s2, b2.stream = some s2 → Due T.B M In b2.precompressed s2 := by
      subst hb2
      intro hf s2 hs2
      cases hs2
      have hf : b.isFailed = false := hf
      exact due_respond (h.due hf s hs) (hl.live hf s hs).life he hresp (fun hi => hR hi _ _ _ _ _ hresp)
    have e1 : b2.records = b.records ∧ b2.isFailed = b.isFailed ∧ b2.sentAny = b.sentAny ∧ b2.finSent = b.finSent ∧
        b2.ring = b.ring ∧ b2.stream ≠ none := by subst hb2; exact ⟨rfl, rfl, rfl, rfl, rfl, by simp⟩
    have ha2 : Able ring b2 := ⟨fun s2 hs2 hf => ⟨p0, n + 1, hl2.live hf s2 hs2⟩,
      fun _ => by rw [e1.1]; exact ha.opened (by rw [hs]; simp), by rw [e1.2.1, e1.2.2.2.2.1]; exact ha.ring,
      fun _ _ => e1.2.2.2.2.2⟩
    obtain ⟨g1, g2⟩ := (show Wire T.B M In label ring w b2 from h.again e1.1 e1.2.1 e1.2.2.1 hdue e1.2.2.2.2.2).pumpOut ha2 hp
    refine ⟨g1, fun hsh ho => g2 ?_ (by rw [e1.1]; exact ho)⟩
    unfold Shut
    rw [e1.2.1, e1.2.2.2.1]
    exact hsh

/-! ### A stream that was opened for a request stays until it has sent it -/

omit [DecidableEq A] in
theorem data_out {s s' : Stream I A} {k : OutKind} {d : Bytes} {now : Nat} (h : s.phase = .outSending k)
    (hd : s.handleData CI CA d now = (s', none)) : s'.phase = .outSending k := by
  unfold Stream.handleData at hd
  rw [h] at hd
  simp only [] at hd
  split at hd
  · next s1 hi =>
    cases hd
    unfold Stream.handleDataInner at hi
    split at hi
    · cases hi
    · split at hi
      · rw [h] at hi
        cases k with
        | userMessage => injection hi with hi; subst hi; exact h
        | pushPull => cases hi
        | reliablePing => cases hi
      · split at hi
        · cases hi
        · unfold Stream.tryDecodeFrame at hi
          split at hi
          · cases hi
          · injection hi with hi
            subst hi
            exact h
          · simp only at hi
            split at hi
            · cases hi
            · split at hi
              · cases hi
              · split at hi
                · cases hi
                · next hdp =>
                  unfold Stream.dispatch at hdp
                  rw [show ({ s with inputBuf := s.inputBuf ++ d } : Stream I A).phase = .outSending k from h] at hdp
                  cases hdp
  · cases hd

omit [DecidableEq A] in
theorem drain_out {k : OutKind} {rg : Option Keyring} {max now : Nat} (fuel : Nat) :
    ∀ {s s' : Stream I A} {buf left : Bytes}, s.phase = .outSending k →
      drainUnits CI CA T rg max now fuel s buf = (s', left, .all) → s'.phase = .outSending k := by
  induction fuel with
  | zero =>
    intro s s' buf left h hd
    simp only [drainUnits, Prod.mk.injEq] at hd
    rw [← hd.1]; exact h
  | succ fuel ih =>
    intro s s' buf left h hd
    simp only [drainUnits] at hd
    split at hd
    · simp only [Prod.mk.injEq] at hd
      cases hd.2.2
    · simp only [Prod.mk.injEq] at hd
      rw [← hd.1]; exact h
    · split at hd
      · simp only [Prod.mk.injEq] at hd
        cases hd.2.2
      · next hr => exact ih (data_out h hr) hd

/-- The stream still has its request, or the request went out. -/
def Said (b : Bridge I A) : Prop :=
  b.isFailed = false → ∀ s, b.stream = some s → b.sentAny = true ∨ ∃ k, s.phase = .outSending k

omit [DecidableEq I] [DecidableEq A] in
theorem Said.dead {b : Bridge I A} (h : b.isFailed = true) : Said b := fun hf => by rw [h] at hf; cases hf

omit [DecidableEq I] [DecidableEq A] in
theorem Said.closeSend {b b' : Bridge I A} {s : Stream I A} (h : Said b) (hc : CloseSend b s b') : Said b' := by
  cases hc with
  | failed => exact .dead (failWithRetire_failed _ _)
  | open_ => exact h
  | closed hf hn hbf hd =>
    have e1 : (observeSendFin { b with finSent := true }).stream = b.stream := by unfold observeSendFin; split <;> rfl
    have e2 : (observeSendFin { b with finSent := true }).sentAny = b.sentAny := by unfold observeSendFin; split <;> rfl
    intro _ s' hs'
    rw [e1] at hs'
    rw [e2]
    exact h hbf s' hs'

omit [DecidableEq I] [DecidableEq A] in
theorem poll_none {s s' : Stream I A} {now : Nat} (h : s.pollTransmit now = (s', none)) : s' = s ∨ s'.isFailed = true := by
  unfold Stream.pollTransmit at h
  split at h
  · cases h; exact .inl rfl
  · cases h; exact .inl rfl
  · split at h
    · cases h; exact .inr rfl
    · split at h
      · cases h; exact .inl rfl
      · exfalso
        simp only [] at h
        split at h <;> cases h

omit [DecidableEq I] [DecidableEq A] in
theorem Said.pumpOut {b b' : Bridge I A} {now : Nat} (h : Said b) (hp : PumpOut T b now b') : Said b' := by
  cases hp with
  | idle => exact h
  | expired => exact .dead (fail_failed _ _)
  | failed => exact .dead (failWithRetire_failed _ _)
  | late => exact .dead (failWithRetire_failed _ _)
  | quiet s s' _ hs hbf hsf _ hr hc =>
    rcases poll_none hr with e | e
    · subst e
      refine Said.closeSend (b := { b with stream := some s' }) ?_ hc
      intro _ s2 hs2
      cases hs2
      exact h hbf s' hs
    · cases hc with
      | failed => exact .dead (failWithRetire_failed _ _)
      | open_ hf => rw [e] at hf; cases hf
      | closed hf => rw [e] at hf; cases hf
  | broken => exact .dead (failWithRetire_failed _ _)
  | sent s s' chunks u _ hs hbf hsf _ hr hu hc =>
    exact Said.closeSend (b := { b with stream := some s', sentAny := true, records := b.records.write u, sealed := b.sealed + 1 })
      (fun _ _ _ => .inl rfl) hc

omit [DecidableEq A] in
theorem Said.pumpIn {b : Bridge I A} {s : Stream I A} (h : Said b) (hs : b.stream = some s) (input : Bytes) (eof : Bool)
    (now : Nat) : Said (b.pumpIn CI CA T s input eof now) := by
  cases ht : b.isTerminal with
  | true => unfold Bridge.pumpIn; rw [if_pos ht]; exact h
  | false =>
    have hf : b.isFailed = false := by
      cases hf : b.isFailed with
      | false => rfl
      | true => rw [terminal_of_failed hf] at ht; cases ht
    have hp := pumpIn_cases CI CA T b s input eof now ht
    generalize b.pumpIn CI CA T s input eof now = b' at hp
    cases hp with
    | rejected => exact .dead (failWithRetire_failed _ _)
    | bad => exact .dead (failWithRetire_failed _ _)
    | cut => exact .dead (failWithRetire_failed _ _)
    | refused => exact .dead (failWithRetire_failed _ _)
    | more s' left _ hd _ =>
      intro _ s2 hs2
      cases hs2
      rcases h hf s hs with g | ⟨k, g⟩
      · exact .inl g
      · exact .inr ⟨k, drain_out _ g hd⟩
    | ended s' s'' _ hd _ hh =>
      generalize hb1 : ({ b with records := (b.records.recv input).1.read.1, stream := some s'', accum := [] } : Bridge I A) = b1
      have e0 : b1.stream = some s'' ∧ b1.sentAny = b.sentAny := by subst hb1; exact ⟨rfl, rfl⟩
      have e1 : b1.observeRecvFin.stream = b1.stream := by unfold observeRecvFin; split <;> rfl
      have e2 : b1.observeRecvFin.sentAny = b1.sentAny := by unfold observeRecvFin; split <;> rfl
      intro _ s2 hs2
      rw [e1, e0.1] at hs2
      cases hs2
      rw [e2, e0.2]
      rcases h hf s hs with g | ⟨k, g⟩
      · exact .inl g
      · exact .inr ⟨k, data_out (drain_out _ g hd) hh⟩

omit [DecidableEq A] in
theorem Said.feed {b : Bridge I A} (h : Said b) (d : Bytes) (now : Nat) : Said (b.feed CI CA T d now) := by
  unfold Bridge.feed
  split
  · exact h
  · have intake : ∀ (b1 : Bridge I A) (d : Bytes), b1.stream = none → Said (b1.intakeHandshaking d) := by
      intro b1 d hn
      unfold Bridge.intakeHandshaking
      simp only []
      split
      · exact .dead (fail_failed _ _)
      · intro _ s hs
        rw [show _ = none from hn] at hs; cases hs
    split
    · next hs =>
      split
      · split
        · exact .dead (fail_failed _ _)
        · exact intake _ _ hs
      · exact intake _ _ hs
    · next s hs => exact h.pumpIn hs _ _ _

omit [DecidableEq A] in
theorem Said.replay {b : Bridge I A} (h : Said b) (now : Nat) : Said (b.replay CI CA T now) := by
  unfold Bridge.replay
  split
  · exact h
  · next s hs =>
    split
    · exact h
    · exact h.pumpIn hs _ _ _

theorem Said.commitOne {cmp : CmpOptions} {now : Nat} {e : Ep I A} {b : Bridge I A}
    {s : Stream I A} {ev : PayloadEvent I A} {rest : List (PayloadEvent I A)} {r : Ep I A × Bridge I A}
    (h : Said b) (hs : b.stream = some s) (hc : CommitOne cfg env T cmp now e b s ev rest r) : Said r.2 := by
  cases hc with
  | quiet e' _ =>
    intro hf s2 hs2
    cases hs2
    exact h hf s hs
  | close e' _ => exact .dead (failWithRetire_failed _ _)
  | respond e' p b' hresp hp =>
    refine Said.pumpOut (b := _) ?_ hp
    intro hf s2 hs2
    cases hs2
    exact h hf s hs

end Bridge
end Verif
