import Verif.Proof.BridgeEvs
/-
The life of a stream behind a bridge: how many payloads it can still bring, and what closing it means.
-/
namespace Verif
open Spec

section
variable {I A : Type} [DecidableEq I] {CI : DataCodec I} {CA : DataCodec A}

/-- Phases of a stream that was opened for a request and waits for the answer. -/
def Expects : Phase → Prop
  | .outSending k => k ≠ .userMessage
  | _ => False

def PayloadEvent.isRequest : PayloadEvent I A → Bool
  | .pushPullRequest .. => true
  | _ => false

/-- The payload is an answer to what the stream was opened for; a stream that was accepted may bring a request or user
data, and one that sends a user message brings nothing. -/
def Fits : Phase → PayloadEvent I A → Prop
  | .outSending (.pushPull k), .pushPullReply _ _ _ k' _ => k' = k
  | .outSending (.reliablePing q), .reliablePingAcked q' _ => q' = q
  | .inAwaiting, .pushPullRequest .. => True
  | .inAwaiting, .userData .. => True
  | _, _ => False

/-- A stream that was opened in phase `p0`, has not failed, and of which `n` payloads were taken. -/
def Life (p0 : Phase) (n : Nat) (s : Stream I A) : Prop :=
  match s.phase with
  | .failed _ => False
  | .outSending k => p0 = .outSending k ∧ s.endpointEvents = [] ∧ n = 0
  | .outAwaiting k => p0 = .outSending k ∧ k ≠ .userMessage ∧ s.endpointEvents = [] ∧ s.outputBuf = [] ∧ n = 0
  | .inAwaiting => p0 = .inAwaiting ∧ s.endpointEvents = [] ∧ s.outputBuf = [] ∧ n = 0
  | .inSending => p0 = .inAwaiting ∧ n + s.endpointEvents.length ≤ 1 ∧ (s.endpointEvents ≠ [] → s.outputBuf = []) ∧
      ∀ ev ∈ s.endpointEvents, Fits p0 ev
  | .done => s.outputBuf = [] ∧ n + s.endpointEvents.length ≤ 1 ∧ (Expects p0 → n + s.endpointEvents.length = 1) ∧
      ∀ ev ∈ s.endpointEvents, ev.isRequest = false ∧ Fits p0 ev

/-- Everything the stream had to send went out. -/
def Sent (s : Stream I A) : Prop :=
  match s.phase with
  | .outAwaiting _ | .done => True
  | _ => False

omit [DecidableEq I] in
theorem Life.tot {p0 : Phase} {n : Nat} {s : Stream I A} (h : Life p0 n s) : n + s.endpointEvents.length ≤ 1 := by
  unfold Life at h
  revert h
  cases s.phase <;> simp only [] <;> intro h
  rotate_right
  · exact h.elim
  · rw [h.2.1, h.2.2]; simp
  · rw [h.2.2.1, h.2.2.2.2]; simp
  · rw [h.2.1, h.2.2.2]; simp
  · exact h.2.1
  · exact h.2.1

omit [DecidableEq I] in
theorem Life.fits {p0 : Phase} {n : Nat} {s : Stream I A} (h : Life p0 n s) : ∀ ev ∈ s.endpointEvents, Fits p0 ev := by
  unfold Life at h
  revert h
  cases s.phase <;> simp only [] <;> intro h
  rotate_right
  · exact h.elim
  · rw [h.2.1]; simp
  · rw [h.2.2.1]; simp
  · rw [h.2.1]; simp
  · exact h.2.2.2
  · exact fun ev hev => (h.2.2.2 ev hev).2

/-- At most one payload, and it fits. -/
def Cnt (p0 : Phase) (n : Nat) (l : List (PayloadEvent I A)) : Prop := n + l.length ≤ 1 ∧ ∀ ev ∈ l, Fits p0 ev

omit [DecidableEq I] in
theorem Cnt.none {p0 : Phase} {n : Nat} {l : List (PayloadEvent I A)} (h : Cnt p0 n l) :
    Cnt (I := I) (A := A) p0 n [] := ⟨by have := h.1; simp; omega, by simp⟩

omit [DecidableEq I] in
theorem Life.cnt {p0 : Phase} {n : Nat} {s : Stream I A} (h : Life p0 n s) : Cnt p0 n s.endpointEvents :=
  ⟨h.tot, h.fits⟩

omit [DecidableEq I] in
theorem Life.alive {p0 : Phase} {n : Nat} {s : Stream I A} (h : Life p0 n s) : s.isFailed = false := by
  unfold Life at h
  unfold Stream.isFailed
  revert h
  cases s.phase <;> simp

omit [DecidableEq I] in
/-- Sending. -/
theorem Life.poll {p0 : Phase} {n : Nat} {s : Stream I A} (h : Life p0 n s) (now : Nat) :
    ((s.pollTransmit now).1.isFailed = true ∧ (s.pollTransmit now).1.endpointEvents = [] ∧ (s.pollTransmit now).2 = none) ∨
    (s.pollTransmit now = (s, none) ∧ (s.outputBuf = [] ∨ s.phase = .done)) ∨
    (Life p0 n (s.pollTransmit now).1 ∧ Sent (s.pollTransmit now).1 ∧
      (s.pollTransmit now).2 = some s.outputBuf ∧ s.outputBuf ≠ [] ∧ (s.phase = .inSending ∨ ∃ k, s.phase = .outSending k)) := by
  unfold Stream.pollTransmit
  have h0 := h
  unfold Life at h
  split
  · next hp => exact .inr (.inl ⟨rfl, .inr hp⟩)
  · next hp => rw [hp] at h; exact h.elim
  · split
    · exact .inl ⟨rfl, rfl, rfl⟩
    · split
      · next ho => exact .inr (.inl ⟨rfl, .inl ho⟩)
      · next ho =>
        simp only []
        split
        · next hp =>
          rw [hp] at h
          refine .inr (.inr ⟨?_, trivial, rfl, ho, .inr ⟨_, hp⟩⟩)
          simp only [Life]
          rw [h.2.1, h.2.2]
          refine ⟨trivial, by simp, ?_, by simp⟩
          rw [h.1]; intro hc; exact absurd rfl hc
        · next k hk hp =>
          rw [hp] at h
          refine .inr (.inr ⟨?_, trivial, rfl, ho, .inr ⟨_, hp⟩⟩)
          simp only [Life]
          exact ⟨h.1, fun hc => hk (hc ▸ rfl), h.2.1, trivial, h.2.2⟩
        · next hp =>
          rw [hp] at h
          refine .inr (.inr ⟨?_, trivial, rfl, ho, .inl hp⟩)
          simp only [Life]
          have he : s.endpointEvents = [] := by
            cases hev : s.endpointEvents with
            | nil => rfl
            | cons a l => exact absurd (h.2.2.1 (by simp [hev])) ho
          rw [he]
          refine ⟨trivial, by have := h.2.1; rw [he] at this; exact this, ?_, by simp⟩
          rw [h.1]; intro hc; exact hc.elim
        · exfalso
          revert h
          cases hp : s.phase <;> simp_all

omit [DecidableEq I] in
theorem Sent.poll {s : Stream I A} (h : Sent s) (now : Nat) (ho : s.outputBuf = []) (hf : (s.pollTransmit now).1.isFailed = false) :
    (s.pollTransmit now).1 = s := by
  unfold Sent at h
  revert hf
  unfold Stream.pollTransmit
  split
  · intro; rfl
  · intro; rfl
  · split
    · intro hf; cases hf
    · try rw [if_pos ho]
      intro; rfl

/-- A dispatched message. -/
theorem Life.dispatch {p0 : Phase} {n : Nat} {s s' : Stream I A} {m : Message I A} {now : Nat} (h : Life p0 n s)
    (hd : Stream.dispatch CI CA s m now = .ok s') : Life p0 n s' := by
  unfold Life at h
  unfold Stream.dispatch at hd
  cases hp : s.phase with
  | outAwaiting k =>
    rw [hp] at h hd
    simp only [] at h
    cases k with
    | userMessage => exact absurd rfl h.2.1
    | pushPull k =>
      simp only [] at hd
      split at hd
      · injection hd with hd
        subst hd
        simp [Life, h.2.2.1, h.2.2.2.1, h.2.2.2.2, PayloadEvent.isRequest, h.1, Fits]
      · cases hd
    | reliablePing seq =>
      simp only [] at hd
      split at hd
      · split at hd
        · cases hd
        · injection hd with hd
          subst hd
          simp [Life, h.2.2.1, h.2.2.2.1, h.2.2.2.2, PayloadEvent.isRequest, h.1, Fits]
      · cases hd
  | inAwaiting =>
    rw [hp] at h hd
    simp only [] at h hd
    split at hd
    · injection hd with hd
      subst hd
      simp [Life, h.1, h.2.1, h.2.2.1, h.2.2.2, Fits]
    · split at hd
      · cases hd
      · split at hd
        · cases hd
        · injection hd with hd
          subst hd
          simp [Life, h.1, h.2.1, h.2.2.1, h.2.2.2]
    · injection hd with hd
      subst hd
      simp [Life, h.1, h.2.1, h.2.2.1, h.2.2.2, Expects, PayloadEvent.isRequest, Fits]
    · cases hd
  | outSending k => rw [hp] at hd; cases hd
  | inSending => rw [hp] at hd; cases hd
  | done => rw [hp] at hd; cases hd
  | failed e => rw [hp] at hd; cases hd

theorem dispatch_sent {s s' : Stream I A} {m : Message I A} {now : Nat} (h : Sent s)
    (hd : Stream.dispatch CI CA s m now = .ok s') : Sent s' := by
  have h0 := h
  unfold Sent at h
  unfold Stream.dispatch at hd
  cases hp : s.phase with
  | outAwaiting k =>
    rw [hp] at h hd
    cases k with
    | userMessage => simp only [] at hd; injection hd with hd; subst hd; exact h0
    | pushPull k =>
      simp only [] at hd
      split at hd
      · injection hd with hd; subst hd; trivial
      · cases hd
    | reliablePing seq =>
      simp only [] at hd
      split at hd
      · split at hd
        · cases hd
        · injection hd with hd; subst hd; trivial
      · cases hd
  | done => rw [hp] at hd; cases hd
  | _ => rw [hp] at h; exact h.elim

/-- Bytes: what the stream accepts keeps it alive; what it refuses ends it. -/
theorem Life.data {p0 : Phase} {n : Nat} {s s' : Stream I A} {d : Bytes} {now : Nat} {r : Option StreamErr}
    (h : Life p0 n s) (hd : s.handleData CI CA d now = (s', r)) :
    (r = none ∧ Life p0 n s' ∧ (Sent s → Sent s')) ∨ (r ≠ none ∧ s'.isFailed = true ∧ s'.endpointEvents = []) := by
  have h0 := h
  unfold Stream.handleData at hd
  split at hd
  · next hp => unfold Life at h; rw [hp] at h; exact h.elim
  · split at hd
    · cases hd; exact .inl ⟨rfl, h0, id⟩
    · cases hd; exact .inr ⟨by simp, rfl, rfl⟩
  · split at hd
    · next s1 hi =>
      cases hd
      refine .inl ⟨rfl, ?_⟩
      unfold Stream.handleDataInner at hi
      split at hi
      · cases hi
      · split at hi
        · split at hi <;> first
            | (injection hi with hi; subst hi; exact ⟨h0, id⟩)
            | (cases hi; done)
            | (split at hi <;> first | (injection hi with hi; subst hi; exact ⟨h0, id⟩) | (cases hi; done))
        · split at hi
          · cases hi
          · unfold Stream.tryDecodeFrame at hi
            split at hi
            · cases hi
            · injection hi with hi
              subst hi
              exact ⟨h0, id⟩
            · simp only at hi
              split at hi
              · cases hi
              · split at hi
                · cases hi
                · split at hi
                  · cases hi
                  · next hdp =>
                    split at hi
                    · cases hi
                    · injection hi with hi
                      subst hi
                      refine ⟨Life.dispatch (CI := CI) (CA := CA) (p0 := p0) (n := n) ?_ hdp,
                        fun hs => dispatch_sent (CI := CI) (CA := CA) ?_ hdp⟩
                      · exact h0
                      · exact hs
    · cases hd; exact .inr ⟨by simp, rfl, rfl⟩

omit [DecidableEq I] in
/-- One payload is taken. -/
theorem Life.take {p0 : Phase} {n : Nat} {s : Stream I A} {ev : PayloadEvent I A} {rest : List (PayloadEvent I A)}
    (h : Life p0 n s) (he : s.endpointEvents = ev :: rest) :
    rest = [] ∧ Life p0 (n + 1) { s with endpointEvents := rest } ∧
      (s.phase = .inSending ∨ s.phase = .done ∧ ev.isRequest = false) := by
  have ht := h.tot
  rw [he, List.length_cons] at ht
  have hr : rest = [] := List.length_eq_zero_iff.1 (by omega)
  subst hr
  unfold Life at h ⊢
  refine ⟨rfl, ?_⟩
  revert h
  cases hp : s.phase <;> simp only [he] <;> intro h <;> first | (simp_all; done) | skip
end

namespace Bridge
variable {I A : Type} [DecidableEq I] {cfg : Cfg I A} {env : Env I A} {T : TEnv}

theorem drainUnits_life {CI : DataCodec I} {CA : DataCodec A} {ring : Option Keyring} {max now : Nat} {p0 : Phase}
    {n : Nat} (fuel : Nat) : ∀ {s s' : Stream I A} {buf left : Bytes} {d : Drained}, Life p0 n s →
      drainUnits CI CA T ring max now fuel s buf = (s', left, d) →
      Cnt p0 n s'.endpointEvents ∧
        (d = .all → Life p0 n s' ∧ (Sent s → Sent s') ∧ (Settled s → Settled s')) := by
  induction fuel with
  | zero =>
    intro s s' buf left d h hd
    simp only [drainUnits, Prod.mk.injEq] at hd
    obtain ⟨rfl, rfl, rfl⟩ := hd
    exact ⟨h.cnt, fun _ => ⟨h, id, id⟩⟩
  | succ fuel ih =>
    intro s s' buf left d h hd
    simp only [drainUnits] at hd
    split at hd
    · simp only [Prod.mk.injEq] at hd
      obtain ⟨rfl, rfl, rfl⟩ := hd
      exact ⟨h.cnt, fun hc => by cases hc⟩
    · simp only [Prod.mk.injEq] at hd
      obtain ⟨rfl, rfl, rfl⟩ := hd
      exact ⟨h.cnt, fun _ => ⟨h, id, id⟩⟩
    · next plain used _ =>
      split at hd
      · next s1 e hr =>
        simp only [Prod.mk.injEq] at hd
        obtain ⟨rfl, rfl, rfl⟩ := hd
        rcases h.data hr with ⟨hc, _⟩ | ⟨_, _, he⟩
        · cases hc
        · rw [he]; exact ⟨h.cnt.none, fun hc => by cases hc⟩
      · next s1 hr =>
        rcases h.data hr with ⟨_, hl, hs⟩ | ⟨hc, _⟩
        · obtain ⟨g1, g2⟩ := ih hl hd
          refine ⟨g1, fun hall => ?_⟩
          obtain ⟨a, b, c⟩ := g2 hall
          refine ⟨a, fun x => b (hs x), fun x => c ?_⟩
          have := (x.data (CI := CI) (CA := CA) plain now).1
          rw [hr] at this; exact this
        · exact absurd rfl hc

/-- What a bridge that works can say of its stream. -/
structure Alive (p0 : Phase) (n : Nat) (b : Bridge I A) (s : Stream I A) : Prop where
  life : Life p0 n s
  any : b.sentAny = true → Sent s
  fin : b.finSent = true → Sent s
  recv : b.phase = .recvClosed ∨ b.phase = .bothClosed → Settled s
  send : b.phase = .sendClosed ∨ b.phase = .bothClosed → b.finSent = true

/-- A bridge whose stream was opened in phase `p0`, and for which `n` payloads were committed. -/
structure BLife (p0 : Phase) (n : Nat) (b : Bridge I A) : Prop where
  cnt : Cnt p0 n b.evs
  live : b.isFailed = false → ∀ s, b.stream = some s → Alive p0 n b s

theorem BLife.failed {p0 : Phase} {n : Nat} {b b' : Bridge I A} (hc : Cnt p0 n b.evs) (hk : EvsKept b b')
    (hf : b'.isFailed = true) : BLife p0 n b' := by
  refine ⟨?_, fun h => by rw [hf] at h; cases h⟩
  rcases hk with h | h <;> rw [h]
  · exact hc
  · exact hc.none

theorem BLife.fail {p0 : Phase} {n : Nat} {b : Bridge I A} (h : BLife p0 n b) (r : LinkFail) : BLife p0 n (b.fail r) :=
  .failed h.cnt (kept_fail b r) (fail_failed b r)

theorem failWithRetire_life {p0 : Phase} {n : Nat} {b : Bridge I A} (h : Cnt p0 n b.evs) (r : LinkFail) :
    BLife p0 n (b.failWithRetire r) :=
  .failed (b := b.retire) h (kept_fail b.retire r) (failWithRetire_failed b r)

theorem closeSend_life {p0 : Phase} {n : Nat} {b b' : Bridge I A} {s : Stream I A} (hs : b.stream = some s)
    (h : BLife p0 n b) (hc : CloseSend b s b') : BLife p0 n b' := by
  cases hc with
  | failed hf => exact failWithRetire_life h.cnt _
  | open_ => exact h
  | closed hf hn hbf hd =>
    refine ⟨by rw [evs_observeSendFin]; exact h.cnt, fun _ s' hs' => ?_⟩
    have e1 : (observeSendFin { b with finSent := true }).stream = b.stream := by unfold observeSendFin; split <;> rfl
    have e2 : (observeSendFin { b with finSent := true }).finSent = true := by unfold observeSendFin; split <;> rfl
    have e3 : (observeSendFin { b with finSent := true }).sentAny = b.sentAny := by unfold observeSendFin; split <;> rfl
    rw [e1, hs] at hs'
    cases hs'
    have ha := h.live hbf s hs
    have hsent : Sent s := by
      rcases hd with hd | hd
      · exact ha.any hd
      · unfold Stream.isDone at hd
        unfold Sent
        revert hd
        cases s.phase <;> simp
    refine ⟨ha.life, fun _ => hsent, fun _ => hsent, fun hp => ha.recv ?_, fun _ => e2⟩
    unfold observeSendFin at hp
    split at hp
    · next hq => simp at hp
    · next hq => exact .inl hq
    · exact hp

theorem pumpOut_life {p0 : Phase} {n : Nat} {b b' : Bridge I A} {now : Nat} (h : BLife p0 n b)
    (hp : PumpOut T b now b') : BLife p0 n b' := by
  cases hp with
  | idle => exact h
  | expired => exact h.fail _
  | failed => exact failWithRetire_life h.cnt _
  | late => exact failWithRetire_life h.cnt _
  | quiet s s' _ hs hbf hsf _ hr hc =>
    have ha := h.live hbf s hs
    have hpl := ha.life.poll now
    rw [hr] at hpl
    rcases hpl with ⟨h1, h2, _⟩ | ⟨h1, _⟩ | ⟨_, _, hx, _⟩
    · cases hc with
      | failed _ =>
        refine failWithRetire_life ?_ _
        have hc := h.cnt
        simp only [] at h2
        simp only [evs, h2]; exact hc.none
      | open_ hf => simp only [] at h1; rw [h1] at hf; cases hf
      | closed hf => simp only [] at h1; rw [h1] at hf; cases hf
    · cases h1
      refine closeSend_life rfl ⟨?_, fun _ s2 hs2 => ?_⟩ hc
      · have := h.cnt; simpa [evs, hs] using this
      · cases hs2; exact ⟨ha.life, ha.any, ha.fin, ha.recv, ha.send⟩
    · cases hx
  | broken s s' chunks e hs hbf hsf hr hu =>
    refine failWithRetire_life ?_ _
    have := poll_length s now
    rw [hr] at this
    have hc := h.cnt
    simp only [evs, hs] at hc ⊢
    rcases this with g | g <;> simp only [] at g <;> rw [g]
    · exact hc
    · exact hc.none
  | sent s s' chunks u _ hs hbf hsf _ hr hu hc =>
    have ha := h.live hbf s hs
    have hpl := ha.life.poll now
    rw [hr] at hpl
    rcases hpl with ⟨_, _, hx⟩ | ⟨h1, _⟩ | ⟨hl, hsn, _⟩
    · cases hx
    · cases h1
    · refine closeSend_life rfl ⟨?_, fun _ s2 hs2 => ?_⟩ hc
      · exact hl.cnt
      · cases hs2
        refine ⟨hl, fun _ => hsn, fun _ => hsn, fun hp => ?_, ha.send⟩
        have := (Settled.poll (ha.recv hp) now).1
        rw [hr] at this; exact this

variable {CI : DataCodec I} {CA : DataCodec A}

theorem pumpIn_life {p0 : Phase} {n : Nat} {b : Bridge I A} {s : Stream I A} (h : BLife p0 n b)
    (hs : b.stream = some s) (input : Bytes) (eof : Bool) (now : Nat) :
    BLife p0 n (b.pumpIn CI CA T s input eof now) := by
  cases ht : b.isTerminal with
  | true => unfold pumpIn; rw [if_pos ht]; exact h
  | false =>
    have hbf : b.isFailed = false := by
      cases hf : b.isFailed with
      | false => rfl
      | true => rw [terminal_of_failed hf] at ht; cases ht
    have ha := h.live hbf s hs
    have hp := pumpIn_cases CI CA T b s input eof now ht
    generalize b.pumpIn CI CA T s input eof now = b' at hp
    cases hp with
    | rejected => exact failWithRetire_life (b := { b with records := (b.records.recv input).1 }) h.cnt _
    | bad s' left d _ hd _ => exact failWithRetire_life (drainUnits_life _ ha.life hd).1 _
    | cut s' left _ hd _ _ => exact failWithRetire_life (drainUnits_life _ ha.life hd).1 _
    | more s' left _ hd _ =>
      obtain ⟨g1, g2⟩ := drainUnits_life _ ha.life hd
      obtain ⟨g2, g3, g4⟩ := g2 rfl
      refine ⟨g1, fun _ s2 hs2 => ?_⟩
      cases hs2
      exact ⟨g2, fun x => g3 (ha.any x), fun x => g3 (ha.fin x), fun x => g4 (ha.recv x), ha.send⟩
    | refused s' s'' e _ hd _ hh =>
      obtain ⟨g1, g2⟩ := drainUnits_life _ ha.life hd
      refine failWithRetire_life ?_ _
      rcases (g2 rfl).1.data hh with ⟨hc, _⟩ | ⟨_, _, he⟩
      · cases hc
      · simp only [evs, he]; exact g1.none
    | ended s' s'' _ hd _ hh =>
      obtain ⟨g1, g2⟩ := drainUnits_life _ ha.life hd
      obtain ⟨g2, g3, g4⟩ := g2 rfl
      obtain ⟨rfl, hst, _⟩ := eof_settled hh
      refine ⟨by rw [evs_observeRecvFin]; exact g1, fun _ s2 hs2 => ?_⟩
      generalize hb1 : ({ b with records := (b.records.recv input).1.read.1, stream := some s'', accum := [] } : Bridge I A) = b1 at hs2 ⊢
      have e0 : b1.stream = some s'' ∧ b1.finSent = b.finSent ∧ b1.sentAny = b.sentAny ∧ b1.phase = b.phase := by
        subst hb1; exact ⟨rfl, rfl, rfl, rfl⟩
      have e1 : b1.observeRecvFin.stream = b1.stream := by unfold observeRecvFin; split <;> rfl
      have e2 : b1.observeRecvFin.finSent = b.finSent := by rw [← e0.2.1]; unfold observeRecvFin; split <;> rfl
      have e3 : b1.observeRecvFin.sentAny = b.sentAny := by rw [← e0.2.2.1]; unfold observeRecvFin; split <;> rfl
      rw [e1, e0.1] at hs2
      cases hs2
      refine ⟨g2, fun x => g3 (ha.any (e3 ▸ x)), fun x => g3 (ha.fin (e2 ▸ x)), fun _ => hst, fun hp => ?_⟩
      rw [e2]
      apply ha.send
      unfold observeRecvFin at hp
      split at hp
      · simp at hp
      · next hq => rw [← e0.2.2.2]; exact .inl hq
      · rw [← e0.2.2.2]; exact hp

theorem intake_life {p0 : Phase} {n : Nat} {b : Bridge I A} (h : BLife p0 n b) (hs : b.stream = none) (d : Bytes) :
    BLife p0 n (b.intakeHandshaking d) := by
  have h1 : BLife p0 n ({ b with records := (b.records.recv d).1 } : Bridge I A) :=
    ⟨h.cnt, fun _ s h => by rw [show _ = none from hs] at h; cases h⟩
  unfold intakeHandshaking
  simp only []
  split
  · exact h1.fail _
  · exact h1

theorem feed_life {p0 : Phase} {n : Nat} {b : Bridge I A} (h : BLife p0 n b) (d : Bytes) (now : Nat) :
    BLife p0 n (b.feed CI CA T d now) := by
  unfold feed
  split
  · exact h
  · split
    · next hs =>
      split
      · split
        · exact h.fail _
        · exact intake_life (b := { b with pendingEof := true })
            ⟨h.cnt, fun _ s h => by rw [show _ = none from hs] at h; cases h⟩ hs _
      · exact intake_life h hs _
    · next s hs => exact pumpIn_life h hs _ _ _

theorem replay_life {p0 : Phase} {n : Nat} {b : Bridge I A} (h : BLife p0 n b) (now : Nat) :
    BLife p0 n (b.replay CI CA T now) := by
  unfold replay
  split
  · exact h
  · next s hs =>
    split
    · exact h
    · exact pumpIn_life h hs _ _ _

theorem setCompression_life {p0 : Phase} {n : Nat} {b : Bridge I A} (h : BLife p0 n b) (cmp : CmpOptions) :
    BLife p0 n (b.setCompression cmp) :=
  ⟨h.cnt, fun hf s hs => have ha := h.live hf s hs; ⟨ha.life, ha.any, ha.fin, ha.recv, ha.send⟩⟩

theorem setEncryption_life {p0 : Phase} {n : Nat} {b : Bridge I A} (h : BLife p0 n b) (ring : Option Keyring) :
    BLife p0 n (b.setEncryption ring) :=
  .failed (b := { b with ring := ring }) h.cnt (kept_fail _ _) (fail_failed _ _)

theorem transmit_life {p0 : Phase} {n : Nat} {b : Bridge I A} (h : BLife p0 n b) : BLife p0 n b.transmit.1 :=
  ⟨h.cnt, fun hf s hs => have ha := h.live hf s hs; ⟨ha.life, ha.any, ha.fin, ha.recv, ha.send⟩⟩

variable [DecidableEq A]

theorem response_request {e e' : Ep I A} {ev : PayloadEvent I A} {now : Nat} {p : PushPull I A}
    (h : e.handleStreamEvent cfg env (.payload ev) now = (e', some (.sendResponse p))) : ev.isRequest = true := by
  cases ev with
  | pushPullRequest => rfl
  | pushPullReply =>
    simp only [Ep.handleStreamEvent] at h
    split at h
    · simp at h
    · split at h <;> simp at h
  | reliablePingAcked =>
    simp only [Ep.handleStreamEvent] at h
    split at h <;> simp at h
  | userData =>
    simp only [Ep.handleStreamEvent] at h
    split at h <;> simp at h

theorem commitOne_life {p0 : Phase} {n : Nat} {cmp : CmpOptions} {now : Nat} {e : Ep I A} {b : Bridge I A}
    {s : Stream I A} {ev : PayloadEvent I A} {rest : List (PayloadEvent I A)} {r : Ep I A × Bridge I A}
    (h : BLife p0 n b) (hs : b.stream = some s) (he : s.endpointEvents = ev :: rest)
    (hc : CommitOne cfg env T cmp now e b s ev rest r) : BLife p0 (n + 1) r.2 := by
  have hcnt := h.cnt
  simp only [evs, hs, he] at hcnt
  have hn : Cnt p0 (n + 1) rest := ⟨by have := hcnt.1; simp at this ⊢; omega, fun ev' h' => hcnt.2 ev' (List.mem_cons_of_mem _ h')⟩
  have hl : b.isFailed = false → rest = [] ∧ Life p0 (n + 1) { s with endpointEvents := rest } ∧
      (s.phase = .inSending ∨ s.phase = .done ∧ ev.isRequest = false) := fun hf => (h.live hf s hs).life.take he
  cases hc with
  | quiet e' _ =>
    refine ⟨hn, fun hf s2 hs2 => ?_⟩
    cases hs2
    have ha := h.live hf s hs
    exact ⟨(hl hf).2.1, ha.any, ha.fin, ha.recv, ha.send⟩
  | close e' _ => exact failWithRetire_life (b := { b with stream := some { s with endpointEvents := rest } }) hn _
  | respond e' p b' hresp hp =>
    refine pumpOut_life (n := n + 1) (p0 := p0) ⟨by simpa [evs, Stream.loadResponse] using hn, fun hf s2 hs2 => ?_⟩ hp
    have hf : b.isFailed = false := hf
    cases hs2
    have ha := h.live hf s hs
    obtain ⟨hr, hlife, hph⟩ := hl hf
    rcases hph with hph | ⟨_, hq⟩
    · refine ⟨?_, ha.any, ha.fin, ha.recv, ha.send⟩
      unfold Life at hlife ⊢
      simp only [Stream.loadResponse, hph] at hlife ⊢
      refine ⟨hlife.1, hlife.2.1, fun hc => absurd hr hc, hlife.2.2.2⟩
    · rw [response_request hresp] at hq; cases hq
end Bridge
end Verif
