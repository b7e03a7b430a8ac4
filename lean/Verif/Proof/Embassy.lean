import Verif.Spec.Embassy

/-! Invariants of one slot of the embassy driver's pool. -/

namespace Verif.Embassy

variable {A : Type}

theorem latest_append (t o : List (Obs A)) (h : ∀ x ∈ o, x.begins = false) :
    latest (t ++ o) = latest t ++ o := by
  unfold latest
  rw [List.reverse_append, List.takeWhile_append_of_pos (by simpa using h), List.reverse_append,
    List.reverse_reverse]

theorem latest_begins (t : List (Obs A)) (x : Obs A) (h : x.begins = true) : latest (t ++ [x]) = [] := by
  unfold latest
  rw [List.reverse_append]
  simp [h]

@[simp] theorem received_append (a b : List (Obs A)) : received (a ++ b) = received a ++ received b := by
  simp [received]
@[simp] theorem handed_append (a b : List (Obs A)) : handed (a ++ b) = handed a ++ handed b := by
  simp [handed]
@[simp] theorem accepted_append (a b : List (Obs A)) : accepted (a ++ b) = accepted a ++ accepted b := by
  simp [accepted]
@[simp] theorem transmitted_append (a b : List (Obs A)) :
    transmitted (a ++ b) = transmitted a ++ transmitted b := by
  simp [transmitted]

/-- Nothing of a connection is in a mailbox. -/
structure Quiet (m : Mailbox A) : Prop where
  established : m.established = false
  isOpen : m.isOpen = false
  peer : m.acceptedPeer = none
  fin : m.peerFin = false
  queue : m.sockSendQueue = 0
  inb : m.inbound = []
  out : m.outbound = []

theorem Quiet.reset (m : Mailbox A) : Quiet m.reset := ⟨rfl, rfl, rfl, rfl, rfl, rfl, rfl⟩

/-- The worker stands where no connection is up. -/
def Pc.calm : Pc A → Bool
  | .top | .idle | .accepting _ | .relisten | .dialing _ => true
  | _ => false

/-- What a slot holds is what its connection has brought and not yet passed on. -/
structure Holds (s : Slot A) (c : List (Obs A)) : Prop where
  inOrder : handed c <+: received c
  inLive : s.mail.resetDone = false → handed c ++ s.mail.inbound = received c
  outOrder : transmitted c <+: accepted c
  outLive : s.mail.resetDone = false → transmitted c ++ s.mail.outbound = accepted c
  fin : s.mail.peerFin = true → Obs.fin ∈ c
  chunk : ∀ b we peer, s.pc = .writing b we peer → b <+: s.mail.outbound

/-- Where a slot stands agrees with its mailbox. -/
structure Stands (s : Slot A) : Prop where
  calm : s.pc.calm = true → Quiet s.mail
  ready : s.mail.resetDone = true → s.pc = .top ∨ s.pc = .idle
  idle : s.pc = .idle → s.mail.resetDone = true
  top : s.pc = .top → s.mail.resetDone = true ∨ s.mail.command ≠ .idle
  asked : (s.pc = .relisten ∨ (∃ p, s.pc = .accepting p) ∨ ∃ r, s.pc = .dialing r) → s.mail.command ≠ .idle
  inCap : s.mail.inbound.length ≤ s.mail.inCap
  outCap : s.mail.outbound.length ≤ s.mail.outCap
  room : ∀ n we peer, s.pc = .reading n we peer → s.mail.inbound.length + n ≤ s.mail.inCap

theorem Stands.notReady {s : Slot A} (h : Stands s) (hp : s.pc ≠ .top) (hq : s.pc ≠ .idle) :
    s.mail.resetDone = false := by
  cases hr : s.mail.resetDone with
  | false => rfl
  | true => rcases h.ready hr with h | h <;> contradiction

theorem Stands.new (i o : Nat) : Stands (Slot.new A i o) := by
  refine ⟨fun _ => ⟨rfl, rfl, rfl, rfl, rfl, rfl, rfl⟩, fun _ => .inl rfl, fun _ => rfl, fun _ => .inl rfl,
    ?_, Nat.zero_le _, Nat.zero_le _, ?_⟩ <;> simp [Slot.new]

theorem Stands.post {s : Slot A} (h : Stands s) (c : Cmd A) (hc : c ≠ .idle) : Stands (s.post c) := by
  refine ⟨fun hp => ?_, h.ready, h.idle, fun _ => .inr hc, fun _ => hc, h.inCap, h.outCap, h.room⟩
  have q := h.calm hp
  exact ⟨q.1, q.2, q.3, q.4, q.5, q.6, q.7⟩

theorem Stands.call {s : Slot A} (h : Stands s) (c : Call A) (ha : s.allows c = true) :
    Stands (s.call c).1 := by
  cases c with
  | listen p =>
    simp only [Slot.call]
    split
    · exact h
    · exact h.post _ (by simp)
  | connect r => exact h.post _ (by simp)
  | close => exact h.post _ (by simp)
  | abort => exact h.post _ (by simp)
  | recv n =>
    simp only [Slot.call, Slot.recv]
    split
    case h_1 s' b heq =>
      split at heq
      · cases heq
      · next hne =>
        cases heq
        refine ⟨fun hp => ?_, h.ready, h.idle, h.top, h.asked, ?_, h.outCap, ?_⟩
        · have q := h.calm hp
          exact absurd (by simp [q.6]) hne
        · have := h.inCap
          simp only [List.length_drop]; omega
        · intro k we peer hpc
          have := h.room k we peer hpc
          simp only [List.length_drop]; omega
    case h_2 s' heq =>
      split at heq
      · cases heq; exact h
      · cases heq
  | send b =>
    simp only [Slot.call, Slot.send]
    refine ⟨fun hp => ?_, h.ready, h.idle, h.top, h.asked, h.inCap, ?_, h.room⟩
    · have q := h.calm hp
      simp [Slot.allows, Slot.maySend, q.1] at ha
    · have := h.outCap
      simp only [List.length_append, List.length_take]; omega

theorem Stands.runIo {s : Slot A} (hi : s.mail.inbound.length ≤ s.mail.inCap)
    (ho : s.mail.outbound.length ≤ s.mail.outCap) (hr : s.mail.resetDone = false) (a we peer : Bool) :
    Stands (s.runIo a we peer) := by
  simp only [Slot.runIo]
  split
  · constructor <;> simp_all [Pc.calm]
  split
  · constructor <;> simp_all [Pc.calm]
  split
  · constructor <;> simp_all [Pc.calm]
  split
  · constructor <;> simp_all [Pc.calm]
  · constructor <;> simp_all [Pc.calm]
    omega

theorem Slot.runIo_mail (s : Slot A) (a we peer : Bool) : (s.runIo a we peer).mail = s.mail := by
  simp only [Slot.runIo]
  repeat' split
  all_goals rfl

theorem Slot.runIo_wake (s : Slot A) (a we peer : Bool) : (s.runIo a we peer).wake = s.wake := by
  simp only [Slot.runIo]
  repeat' split
  all_goals rfl

theorem Stands.down {s : Slot A} (h : Stands s) (hp : s.pc ≠ .top) (hq : s.pc ≠ .idle) : Stands s.down := by
  have hr := h.notReady hp hq
  have h1 := h.inCap
  have h2 := h.outCap
  constructor <;> simp_all [Pc.calm, Slot.down]

theorem Stands.wakeup {s s' : Slot A} {w : Wakeup A} {o : List (Obs A)} (h : Stands s)
    (hw : s.wakeup w = some (s', o)) : Stands s' := by
  have hin := h.inCap
  have hout := h.outCap
  have hn := h.notReady
  obtain ⟨m, wk, pc⟩ := s
  cases pc <;> cases w <;> simp only [Slot.wakeup, reduceCtorEq] at hw
  case top.run q =>
    have q := h.calm rfl
    have ht := h.top rfl
    simp only [Option.some.injEq, Slot.runTop] at hw
    split at hw
    all_goals (simp only [Prod.mk.injEq] at hw; obtain ⟨rfl, -⟩ := hw)
    · exact ⟨fun _ => ⟨q.1, q.2, q.3, q.4, q.5, q.6, q.7⟩, by simp, by simp, by simp, by simp_all, hin, hout,
        by simp⟩
    · exact ⟨fun _ => ⟨q.1, q.2, q.3, q.4, q.5, q.6, q.7⟩, by simp, by simp, by simp, by simp_all, hin, hout,
        by simp⟩
    · exact ⟨fun _ => .reset _, by simp, by simp [Mailbox.reset], by simp [Mailbox.reset], by simp,
        by simp [Mailbox.reset], by simp [Mailbox.reset], by simp⟩
    · exact ⟨fun _ => .reset _, by simp, by simp [Mailbox.reset], by simp [Mailbox.reset], by simp,
        by simp [Mailbox.reset], by simp [Mailbox.reset], by simp⟩
    · exact ⟨fun _ => ⟨q.1, q.2, q.3, q.4, q.5, q.6, q.7⟩, by simp, by simp_all, by simp, by simp, hin, hout,
        by simp⟩
  case idle.woke =>
    have q := h.calm rfl
    have hi := h.idle rfl
    split at hw
    · simp only [Option.some.injEq, Prod.mk.injEq] at hw
      obtain ⟨rfl, -⟩ := hw
      exact ⟨fun _ => q, by simp, by simp, fun _ => .inl hi, by simp, hin, hout, by simp⟩
    · cases hw
  case relisten.flushed =>
    have q := h.calm rfl
    simp only [Option.some.injEq, Prod.mk.injEq] at hw
    obtain ⟨rfl, -⟩ := hw
    exact ⟨fun _ => q, by simp, by simp, fun _ => .inr (h.asked (.inl rfl)), by simp, hin, hout, by simp⟩
  case accepting.woke p =>
    have q := h.calm rfl
    have hr := hn (by simp) (by simp)
    split at hw
    · simp only [Option.some.injEq, Prod.mk.injEq] at hw
      obtain ⟨rfl, -⟩ := hw
      exact ⟨fun _ => q, by simp_all, by simp, by simp, fun _ => h.asked (.inr (.inl ⟨_, rfl⟩)), hin, hout,
        by simp⟩
    · cases hw
  case est.run =>
    have hr := hn (by simp) (by simp)
    simp only [Option.some.injEq, Slot.runEst] at hw
    split at hw
    · split at hw
      · simp only [Prod.mk.injEq] at hw
        obtain ⟨rfl, -⟩ := hw
        exact .runIo hin hout hr _ _ _
      · simp only [Prod.mk.injEq] at hw
        obtain ⟨rfl, -⟩ := hw
        apply Stands.runIo
        · exact hin
        · exact hout
        · exact hr
    · simp only [Prod.mk.injEq] at hw
      obtain ⟨rfl, -⟩ := hw
      constructor <;> simp_all [Pc.calm]
    · simp only [Prod.mk.injEq] at hw
      obtain ⟨rfl, -⟩ := hw
      exact .runIo hin hout hr _ _ _
  case reading.data n we peer b q =>
    have hr := hn (by simp) (by simp)
    have := h.room _ _ _ rfl
    split at hw
    · simp only [Option.some.injEq, Prod.mk.injEq] at hw
      obtain ⟨rfl, -⟩ := hw
      constructor <;> simp_all [Pc.calm]
      omega
    · cases hw
  case writing.wrote =>
    have hr := hn (by simp) (by simp)
    split at hw
    · simp only [Option.some.injEq, Prod.mk.injEq] at hw
      obtain ⟨rfl, -⟩ := hw
      constructor <;> simp_all [Pc.calm]
      omega
    · cases hw
  case resetting.flushed =>
    simp only [Option.some.injEq, Prod.mk.injEq] at hw
    obtain ⟨rfl, -⟩ := hw
    exact ⟨fun _ => .reset _, by simp, by simp [Mailbox.reset], by simp [Mailbox.reset], by simp,
        by simp [Mailbox.reset], by simp [Mailbox.reset], by simp⟩
  case accepting.up =>
    have hr := hn (by simp) (by simp)
    split at hw
    all_goals
      simp only [Option.some.injEq, Prod.mk.injEq] at hw
      obtain ⟨rfl, -⟩ := hw
      constructor <;> simp_all [Pc.calm]
  case aborting.flushed | finishing.flushed | writing.err | reading.err =>
    simp only [Option.some.injEq, Prod.mk.injEq] at hw
    obtain ⟨rfl, -⟩ := hw
    exact h.down (by simp) (by simp)
  case dialing.woke | parked.woke | reading.woke =>
    have hr := hn (by simp) (by simp)
    split at hw
    · simp only [Option.some.injEq, Prod.mk.injEq] at hw
      obtain ⟨rfl, -⟩ := hw
      constructor <;> simp_all [Pc.calm]
    · cases hw
  all_goals
    have hr := hn (by simp) (by simp)
    simp only [Option.some.injEq, Prod.mk.injEq] at hw
    obtain ⟨rfl, -⟩ := hw
    constructor <;> simp_all [Pc.calm]

theorem Stands.step {s s' : Slot A} {e : Ev A} {o : List (Obs A)} (h : Stands s)
    (hs : s.step e = some (s', o)) : Stands s' := by
  cases e with
  | engine c =>
    simp only [Slot.step] at hs
    split at hs
    · next ha =>
      have := h.call c ha
      simp only [Option.some.injEq] at hs
      rw [hs] at this
      exact this
    · cases hs
  | worker w => exact h.wakeup hs

/-! ### The bytes -/

theorem Holds.new (i o : Nat) : Holds (Slot.new A i o) [] := by
  constructor <;> simp [Slot.new, Mailbox.new, handed, received, transmitted, accepted]

/-- Nothing that happens moves a byte. -/
theorem Holds.same {s s' : Slot A} {t o : List (Obs A)} (h : Holds s (latest t))
    (hb : ∀ x ∈ o, x.begins = false) (hi : s'.mail.inbound = s.mail.inbound)
    (ho : s'.mail.outbound = s.mail.outbound) (hr : s'.mail.resetDone = s.mail.resetDone)
    (h1 : handed o = []) (h2 : received o = []) (h3 : transmitted o = []) (h4 : accepted o = [])
    (hf : s'.mail.peerFin = true → s.mail.peerFin = true ∨ Obs.fin ∈ o)
    (hc : ∀ b we peer, s'.pc = .writing b we peer → b <+: s'.mail.outbound) :
    Holds s' (latest (t ++ o)) := by
  rw [latest_append _ _ hb]
  refine ⟨?_, ?_, ?_, ?_, ?_, hc⟩
  · simpa [h1, h2] using h.inOrder
  · simpa [h1, h2, hi, hr] using h.inLive
  · simpa [h3, h4] using h.outOrder
  · simpa [h3, h4, ho, hr] using h.outLive
  · intro hp
    rcases hf hp with hp | hp
    · simp [h.fin hp]
    · simp [hp]

/-- A mailbox is cleared. -/
theorem Holds.cleared {s : Slot A} {t o : List (Obs A)} (h : Holds s (latest t))
    (hb : ∀ x ∈ o, x.begins = false)
    (h1 : handed o = []) (h2 : received o = []) (h3 : transmitted o = []) (h4 : accepted o = []) :
    Holds { s with mail := s.mail.reset, pc := .top } (latest (t ++ o)) := by
  rw [latest_append _ _ hb]
  refine ⟨?_, by simp [Mailbox.reset], ?_, by simp [Mailbox.reset], by simp [Mailbox.reset], by simp⟩
  · simpa [h1, h2] using h.inOrder
  · simpa [h3, h4] using h.outOrder

theorem Holds.call {s : Slot A} {t : List (Obs A)} (h : Holds s (latest t)) (hs : Stands s) (c : Call A)
    (ha : s.allows c = true) : Holds (s.call c).1 (latest (t ++ (s.call c).2)) := by
  have hpost : ∀ c : Cmd A, Holds (s.post c) (latest (t ++ [])) := fun c =>
    h.same (by simp) rfl rfl rfl rfl rfl rfl rfl (fun h => .inl h) h.chunk
  cases c with
  | listen p =>
    simp only [Slot.call]
    split
    · simpa using h
    · exact hpost _
  | connect r => exact hpost _
  | close => exact hpost _
  | abort => exact hpost _
  | recv n =>
    simp only [Slot.call, Slot.recv]
    split
    case h_1 s' b heq =>
      split at heq
      · cases heq
      · next hne =>
        cases heq
        have hr : s.mail.resetDone = false := by
          cases hr : s.mail.resetDone with
          | false => rfl
          | true =>
            have q := hs.calm (by rcases hs.ready hr with h | h <;> simp [h, Pc.calm])
            exact absurd (by simp [q.6]) hne
        have hl := h.inLive hr
        rw [latest_append _ _ (by simp [Obs.begins])]
        refine ⟨?_, ?_, ?_, ?_, ?_, h.chunk⟩
        · refine ⟨s.mail.inbound.drop n, ?_⟩
          simp [handed, received] at hl ⊢
          exact hl
        · intro _
          simp [handed, received] at hl ⊢
          exact hl
        · simpa [transmitted, accepted] using h.outOrder
        · simpa [transmitted, accepted] using h.outLive
        · intro hp
          simp [h.fin hp]
    case h_2 s' heq =>
      split at heq
      · cases heq; simpa using h
      · cases heq
  | send b =>
    have hr : s.mail.resetDone = false := by
      cases hr : s.mail.resetDone with
      | false => rfl
      | true =>
        have q := hs.calm (by rcases hs.ready hr with h | h <;> simp [h, Pc.calm])
        simp [Slot.allows, Slot.maySend, q.1] at ha
    have hl := h.outLive hr
    simp only [Slot.call, Slot.send]
    rw [latest_append _ _ (by simp [Obs.begins])]
    refine ⟨?_, ?_, ?_, ?_, ?_, ?_⟩
    · simpa [handed, received] using h.inOrder
    · simpa [handed, received] using h.inLive
    · have := h.outOrder.trans (List.prefix_append (accepted (latest t))
        (b.take (min (s.mail.outCap - s.mail.outbound.length) b.length)))
      simpa [transmitted, accepted] using this
    · intro _
      have : transmitted (latest t ++ [Obs.accepted (A := A)
          (b.take (min (s.mail.outCap - s.mail.outbound.length) b.length))]) = transmitted (latest t) := by
        simp [transmitted]
      rw [this]
      show _ ++ (s.mail.outbound ++ _) = _
      rw [← List.append_assoc, hl]
      simp [accepted]
    · intro hp
      simp [h.fin hp]
    · intro b' we peer hp
      exact (h.chunk b' we peer hp).trans (List.prefix_append _ _)

theorem Slot.runIo_chunk (s : Slot A) (a we peer : Bool) :
    ∀ b we' peer', (s.runIo a we peer).pc = .writing b we' peer' → b <+: (s.runIo a we peer).mail.outbound := by
  intro b we' peer'
  rw [Slot.runIo_mail]
  simp only [Slot.runIo]
  repeat' split
  all_goals simp_all

theorem Holds.wakeup {s s' : Slot A} {w : Wakeup A} {t o : List (Obs A)} (h : Holds s (latest t))
    (hs : Stands s) (hw : s.wakeup w = some (s', o)) : Holds s' (latest (t ++ o)) := by
  have hn := hs.notReady
  obtain ⟨m, wk, pc⟩ := s
  cases pc <;> cases w <;> simp only [Slot.wakeup, reduceCtorEq] at hw
  case top.run q =>
    have q := hs.calm rfl
    simp only [Option.some.injEq, Slot.runTop] at hw
    split at hw
    all_goals (simp only [Prod.mk.injEq] at hw; obtain ⟨rfl, rfl⟩ := hw)
    · rw [latest_begins _ _ rfl]
      have h4 : m.peerFin = false := q.4
      have h6 : m.inbound = [] := q.6
      have h7 : m.outbound = [] := q.7
      constructor <;> simp [handed, received, transmitted, accepted, h4, h6, h7]
    · rw [latest_begins _ _ rfl]
      have h4 : m.peerFin = false := q.4
      have h6 : m.inbound = [] := q.6
      have h7 : m.outbound = [] := q.7
      constructor <;> simp [handed, received, transmitted, accepted, h4, h6, h7]
    · exact h.cleared (by simp [Obs.begins]) rfl rfl rfl rfl
    · exact h.cleared (by simp [Obs.begins]) rfl rfl rfl rfl
    · exact h.same (by simp) rfl rfl rfl rfl rfl rfl rfl (fun h => .inl h) (by simp)
  case est.run =>
    simp only [Option.some.injEq, Slot.runEst] at hw
    split at hw
    · split at hw
      all_goals
        simp only [Prod.mk.injEq] at hw
        obtain ⟨rfl, rfl⟩ := hw
        exact h.same (by simp [Obs.begins]) (by rw [Slot.runIo_mail]) (by rw [Slot.runIo_mail])
          (by rw [Slot.runIo_mail]) rfl rfl rfl rfl (by rw [Slot.runIo_mail]; exact fun h => .inl h)
          (Slot.runIo_chunk _ _ _ _)
    · simp only [Prod.mk.injEq] at hw
      obtain ⟨rfl, rfl⟩ := hw
      exact h.same (by simp [Obs.begins]) rfl rfl rfl rfl rfl rfl rfl (fun h => .inl h) (by simp)
    · simp only [Prod.mk.injEq] at hw
      obtain ⟨rfl, rfl⟩ := hw
      exact h.same (by simp [Obs.begins]) (by rw [Slot.runIo_mail]) (by rw [Slot.runIo_mail])
          (by rw [Slot.runIo_mail]) rfl rfl rfl rfl (by rw [Slot.runIo_mail]; exact fun h => .inl h)
          (Slot.runIo_chunk _ _ _ _)
  case reading.data n we peer b q =>
    have hr := hn (by simp) (by simp)
    have hl := h.inLive hr
    split at hw
    · simp only [Option.some.injEq, Prod.mk.injEq] at hw
      obtain ⟨rfl, rfl⟩ := hw
      rw [latest_append _ _ (by simp [Obs.begins])]
      refine ⟨?_, ?_, ?_, ?_, ?_, by simp⟩
      · have : received (latest t ++ [Obs.read (A := A) b]) = received (latest t) ++ b := by simp [received]
        rw [this, show handed (latest t ++ [Obs.read (A := A) b]) = handed (latest t) by simp [handed]]
        exact h.inOrder.trans (List.prefix_append _ _)
      · intro _
        have : received (latest t ++ [Obs.read (A := A) b]) = received (latest t) ++ b := by simp [received]
        rw [this, show handed (latest t ++ [Obs.read (A := A) b]) = handed (latest t) by simp [handed]]
        simp only at hl ⊢
        rw [← List.append_assoc, hl]
      · simpa [transmitted, accepted] using h.outOrder
      · simpa [transmitted, accepted] using h.outLive
      · intro hp
        simp [h.fin hp]
    · cases hw
  case writing.wrote chunk we peer n q =>
    have hr := hn (by simp) (by simp)
    have hl := h.outLive hr
    have hc := h.chunk _ _ _ rfl
    split at hw
    · next hle =>
      simp only [Option.some.injEq, Prod.mk.injEq] at hw
      obtain ⟨rfl, rfl⟩ := hw
      have htk : m.outbound.take n = chunk.take n := by
        obtain ⟨r, hr⟩ := hc
        simp only at hr
        rw [← hr, List.take_append_of_le_length hle]
      have h1 : transmitted (latest t ++ [Obs.wrote (A := A) (chunk.take n)]) ++ m.outbound.drop n =
          accepted (latest t) := by
        simp only at hl
        rw [← hl]
        simp [transmitted, ← htk]
      have h2 : accepted (latest t ++ [Obs.wrote (A := A) (chunk.take n)]) = accepted (latest t) := by
        simp [accepted]
      rw [latest_append _ _ (by simp [Obs.begins])]
      refine ⟨?_, ?_, ?_, ?_, ?_, by simp⟩
      · simpa [handed, received] using h.inOrder
      · simpa [handed, received] using h.inLive
      · rw [h2]; exact ⟨_, h1⟩
      · intro _; rw [h2]; exact h1
      · intro hp
        simp [h.fin hp]
    · cases hw
  case resetting.flushed =>
    simp only [Option.some.injEq, Prod.mk.injEq] at hw
    obtain ⟨rfl, rfl⟩ := hw
    exact h.cleared (by simp) rfl rfl rfl rfl
  case accepting.up =>
    split at hw
    all_goals
      simp only [Option.some.injEq, Prod.mk.injEq] at hw
      obtain ⟨rfl, rfl⟩ := hw
      exact h.same (by simp [Obs.begins]) rfl rfl rfl rfl rfl rfl rfl (fun h => .inl h) (by simp)
  case idle.woke | accepting.woke | dialing.woke | parked.woke | reading.woke =>
    split at hw
    · simp only [Option.some.injEq, Prod.mk.injEq] at hw
      obtain ⟨rfl, rfl⟩ := hw
      exact h.same (by simp [Obs.begins]) rfl rfl rfl rfl rfl rfl rfl (fun h => .inl h) (by simp)
    · cases hw
  case reading.eof =>
    simp only [Option.some.injEq, Prod.mk.injEq] at hw
    obtain ⟨rfl, rfl⟩ := hw
    exact h.same (by simp [Obs.begins]) rfl rfl rfl rfl rfl rfl rfl (fun _ => .inr (by simp)) (by simp)
  all_goals
    simp only [Option.some.injEq, Prod.mk.injEq] at hw
    obtain ⟨rfl, rfl⟩ := hw
    exact h.same (by simp [Obs.begins]) rfl rfl rfl rfl rfl rfl rfl (fun h => .inl h) (by simp [Slot.down])

theorem Holds.step {s s' : Slot A} {e : Ev A} {t o : List (Obs A)} (h : Holds s (latest t)) (hs : Stands s)
    (hw : s.step e = some (s', o)) : Holds s' (latest (t ++ o)) := by
  cases e with
  | engine c =>
    simp only [Slot.step] at hw
    split at hw
    · next ha =>
      have := h.call hs c ha
      simp only [Option.some.injEq] at hw
      rw [hw] at this
      exact this
    · cases hw
  | worker w => exact h.wakeup hs hw

/-! ### The wake -/

/-- A worker that waits although something is wanted of it has been woken. -/
def Awake (s : Slot A) : Prop := s.wanted → s.wake = true

theorem Awake.new (i o : Nat) : Awake (Slot.new A i o) := by simp [Awake, Slot.wanted, Slot.new]

theorem Awake.call {s : Slot A} (h : Awake s) (hs : Stands s) (c : Call A) : Awake (s.call c).1 := by
  cases c with
  | listen p =>
    simp only [Slot.call]
    split
    · exact h
    · exact fun _ => rfl
  | connect r => exact fun _ => rfl
  | close => exact fun _ => rfl
  | abort => exact fun _ => rfl
  | recv n =>
    simp only [Slot.call, Slot.recv]
    split
    case h_1 s' b heq =>
      split at heq
      · cases heq
      · cases heq
        intro hw
        by_cases hfull : s.mail.inCap ≤ s.mail.inbound.length
        · simp [hfull]
        · have := h (by
            simp only [Slot.wanted] at hw ⊢
            split at hw <;> simp_all
            rcases hw with h | h | h | h
            · exact .inl h
            · exact .inr (.inl h)
            · exact .inr (.inr (.inl h))
            · exact .inr (.inr (.inr h.1)))
          simp [this]
    case h_2 s' heq =>
      split at heq
      · cases heq; exact h
      · cases heq
  | send b =>
    simp only [Slot.call, Slot.send]
    intro hw
    by_cases ht : 0 < min (s.mail.outCap - s.mail.outbound.length) b.length
    · simp [ht]
    · have h0 : min (s.mail.outCap - s.mail.outbound.length) b.length = 0 := by omega
      rw [h0] at hw ⊢
      have := h (by simpa [Slot.wanted] using hw)
      simp [this]

theorem Awake.runIo {s : Slot A} (a we peer : Bool) (ha : a = !s.mail.outbound.isEmpty)
    (hc : s.mail.command ≠ .abort) (hd : we = false → s.mail.command ≠ .close) :
    ¬ (s.runIo a we peer).wanted := by
  simp only [Slot.runIo]
  split
  · simp [Slot.wanted]
  split
  · simp [Slot.wanted]
  · next hout =>
    split
    · next hp =>
      subst ha
      simp only [Slot.wanted]
      cases we <;> simp_all
    split
    · next hroom =>
      subst ha
      simp only [Slot.wanted]
      cases we <;> simp_all <;> omega
    · subst ha
      simp only [Slot.wanted]
      cases we <;> simp_all

theorem Awake.wakeup {s s' : Slot A} {w : Wakeup A} {o : List (Obs A)} (h : Awake s) (hs : Stands s)
    (hw : s.wakeup w = some (s', o)) : Awake s' := by
  obtain ⟨m, wk, pc⟩ := s
  intro hwant
  exfalso
  revert hwant
  show ¬ s'.wanted
  cases pc <;> cases w <;> simp only [Slot.wakeup, reduceCtorEq] at hw
  case top.run q =>
    simp only [Option.some.injEq, Slot.runTop] at hw
    split at hw
    all_goals (simp only [Prod.mk.injEq] at hw; obtain ⟨rfl, rfl⟩ := hw; simp_all [Slot.wanted])
  case est.run =>
    simp only [Option.some.injEq, Slot.runEst] at hw
    split at hw
    · split at hw
      all_goals
        simp only [Prod.mk.injEq] at hw
        obtain ⟨rfl, rfl⟩ := hw
        exact Awake.runIo _ _ _ rfl (by simp_all) (by simp_all)
    · simp only [Prod.mk.injEq] at hw
      obtain ⟨rfl, rfl⟩ := hw
      simp [Slot.wanted]
    · simp only [Prod.mk.injEq] at hw
      obtain ⟨rfl, rfl⟩ := hw
      exact Awake.runIo _ _ _ rfl (by simp_all) (by simp_all)
  case accepting.up | reading.data | writing.wrote | idle.woke | accepting.woke | dialing.woke | parked.woke |
      reading.woke =>
    split at hw
    all_goals simp only [Option.some.injEq, Prod.mk.injEq, reduceCtorEq] at hw
    all_goals
      obtain ⟨rfl, rfl⟩ := hw
      simp [Slot.wanted]
  all_goals
    simp only [Option.some.injEq, Prod.mk.injEq] at hw
    obtain ⟨rfl, rfl⟩ := hw
    simp [Slot.wanted, Slot.down]

theorem Awake.step {s s' : Slot A} {e : Ev A} {o : List (Obs A)} (h : Awake s) (hs : Stands s)
    (hw : s.step e = some (s', o)) : Awake s' := by
  cases e with
  | engine c =>
    simp only [Slot.step] at hw
    split at hw
    · have := h.call hs c
      simp only [Option.some.injEq] at hw
      rw [hw] at this
      exact this
    · cases hw
  | worker w => exact h.wakeup hs hw

/-! ### The end of what the peer sends -/

/-- Nothing was received behind the end. -/
def quietEnd (c : List (Obs A)) : Prop := received (c.dropWhile fun o => !o.isFin) = []

theorem received_dropWhile (c : List (Obs A)) (p : Obs A → Bool) (h : received c = []) :
    received (c.dropWhile p) = [] := by
  simp only [received, List.flatMap_eq_nil_iff] at h ⊢
  exact fun x hx => h x ((List.dropWhile_sublist p).subset hx)

theorem quietEnd_append (c o : List (Obs A)) (h : quietEnd c) (ho : received o = []) : quietEnd (c ++ o) := by
  unfold quietEnd at *
  rw [List.dropWhile_append]
  split
  · exact received_dropWhile o _ ho
  · simp [h, ho]

theorem dropWhile_noFin (c : List (Obs A)) (h : Obs.fin ∉ c) : c.dropWhile (fun o => !o.isFin) = [] := by
  induction c with
  | nil => rfl
  | cons x c ih =>
    simp only [List.mem_cons, not_or] at h
    rw [List.dropWhile_cons_of_pos (by cases x <;> simp_all [Obs.isFin]), ih h.2]

structure Ends (s : Slot A) (c : List (Obs A)) : Prop where
  none : s.mail.resetDone = false → s.mail.peerFin = false → Obs.fin ∉ c
  est : ∀ we peer, (s.pc = .est we peer ∨ s.pc = .parked we peer ∨ s.pc = .flushing we peer ∨
    ∃ b, s.pc = .writing b we peer) → s.mail.peerFin = peer
  reading : ∀ n we peer, s.pc = .reading n we peer → peer = false ∧ s.mail.peerFin = false
  quiet : quietEnd c

theorem Ends.new (i o : Nat) : Ends (Slot.new A i o) [] := by
  constructor <;> simp [Slot.new, quietEnd, received]

/-- Nothing is received and no end reported. -/
theorem Ends.same {s s' : Slot A} {t o : List (Obs A)} (h : Ends s (latest t))
    (hb : ∀ x ∈ o, x.begins = false) (hr : s'.mail.resetDone = s.mail.resetDone)
    (hf : s'.mail.peerFin = s.mail.peerFin) (h2 : received o = []) (hfo : Obs.fin ∉ o)
    (he : ∀ we peer, (s'.pc = .est we peer ∨ s'.pc = .parked we peer ∨ s'.pc = .flushing we peer ∨
      ∃ b, s'.pc = .writing b we peer) → s'.mail.peerFin = peer)
    (hg : ∀ n we peer, s'.pc = .reading n we peer → peer = false ∧ s'.mail.peerFin = false) :
    Ends s' (latest (t ++ o)) := by
  rw [latest_append _ _ hb]
  refine ⟨fun h1 h2 => ?_, he, hg, quietEnd_append _ _ h.quiet h2⟩
  simp only [List.mem_append, not_or]
  exact ⟨h.none (by rw [← hr]; exact h1) (by rw [← hf]; exact h2), hfo⟩

theorem Ends.call {s : Slot A} {t : List (Obs A)} (h : Ends s (latest t)) (c : Call A) :
    Ends (s.call c).1 (latest (t ++ (s.call c).2)) := by
  have hpost : ∀ c : Cmd A, Ends (s.post c) (latest (t ++ [])) := fun c =>
    h.same (by simp) rfl rfl rfl (by simp) h.est h.reading
  cases c with
  | listen p =>
    simp only [Slot.call]
    split
    · simpa using h
    · exact hpost _
  | connect r => exact hpost _
  | close => exact hpost _
  | abort => exact hpost _
  | recv n =>
    simp only [Slot.call, Slot.recv]
    split
    case h_1 s' b heq =>
      split at heq
      · cases heq
      · cases heq
        exact h.same (by simp [Obs.begins]) rfl rfl rfl (by simp) h.est h.reading
    case h_2 s' heq =>
      split at heq
      · cases heq; simpa using h
      · cases heq
  | send b => exact h.same (by simp [Obs.begins, Slot.call]) rfl rfl rfl (by simp [Slot.call]) h.est h.reading

theorem Ends.runIo {s : Slot A} {we peer : Bool} (a we' : Bool) (h : s.mail.peerFin = peer) :
    (∀ we peer', ((s.runIo a we' peer).pc = .est we peer' ∨ (s.runIo a we' peer).pc = .parked we peer' ∨
      (s.runIo a we' peer).pc = .flushing we peer' ∨ ∃ b, (s.runIo a we' peer).pc = .writing b we peer') →
        (s.runIo a we' peer).mail.peerFin = peer') ∧
    (∀ n we peer', (s.runIo a we' peer).pc = .reading n we peer' →
      peer' = false ∧ (s.runIo a we' peer).mail.peerFin = false) := by
  rw [Slot.runIo_mail]
  simp only [Slot.runIo]
  repeat' split
  all_goals simp_all

theorem Ends.wakeup {s s' : Slot A} {w : Wakeup A} {t o : List (Obs A)} (h : Ends s (latest t))
    (hs : Stands s) (hw : s.wakeup w = some (s', o)) : Ends s' (latest (t ++ o)) := by
  have hn := hs.notReady
  have hest := h.est
  have hread := h.reading
  obtain ⟨m, wk, pc⟩ := s
  cases pc <;> cases w <;> simp only [Slot.wakeup, reduceCtorEq] at hw
  case top.run q =>
    simp only [Option.some.injEq, Slot.runTop] at hw
    split at hw
    all_goals (simp only [Prod.mk.injEq] at hw; obtain ⟨rfl, rfl⟩ := hw)
    · rw [latest_begins _ _ rfl]
      constructor <;> simp [quietEnd, received]
    · rw [latest_begins _ _ rfl]
      constructor <;> simp [quietEnd, received]
    · rw [latest_append _ _ (by simp [Obs.begins])]
      exact ⟨by simp [Mailbox.reset], by simp, by simp, quietEnd_append _ _ h.quiet rfl⟩
    · rw [latest_append _ _ (by simp [Obs.begins])]
      exact ⟨by simp [Mailbox.reset], by simp, by simp, quietEnd_append _ _ h.quiet rfl⟩
    · exact h.same (by simp) rfl rfl rfl (by simp) (by simp) (by simp)
  case est.run we peer q =>
    have hp := hest we peer (.inl rfl)
    simp only [Option.some.injEq, Slot.runEst] at hw
    split at hw
    · split at hw
      all_goals
        simp only [Prod.mk.injEq] at hw
        obtain ⟨rfl, rfl⟩ := hw
        refine h.same (by simp [Obs.begins]) (by rw [Slot.runIo_mail]) (by rw [Slot.runIo_mail]) rfl (by simp)
          (Ends.runIo (we := we) _ _ ?_).1 (Ends.runIo (we := we) _ _ ?_).2 <;> exact hp
    · simp only [Prod.mk.injEq] at hw
      obtain ⟨rfl, rfl⟩ := hw
      exact h.same (by simp [Obs.begins]) rfl rfl rfl (by simp) (by simp) (by simp)
    · simp only [Prod.mk.injEq] at hw
      obtain ⟨rfl, rfl⟩ := hw
      refine h.same (by simp [Obs.begins]) (by rw [Slot.runIo_mail]) (by rw [Slot.runIo_mail]) rfl (by simp)
        (Ends.runIo (we := we) _ _ ?_).1 (Ends.runIo (we := we) _ _ ?_).2 <;> exact hp
  case reading.data n we peer b q =>
    have hr := hn (by simp) (by simp)
    obtain ⟨rfl, hp⟩ := hread _ _ _ rfl
    have hno := h.none hr hp
    split at hw
    · simp only [Option.some.injEq, Prod.mk.injEq] at hw
      obtain ⟨rfl, rfl⟩ := hw
      rw [latest_append _ _ (by simp [Obs.begins])]
      have hno' : Obs.fin ∉ latest t ++ [Obs.read (A := A) b] := by simp [hno]
      refine ⟨fun _ _ => hno', ?_, by simp, ?_⟩
      · intro we' peer' hx
        simp only [Pc.est.injEq, reduceCtorEq, exists_const, or_false] at hx
        rw [← hx.2]; exact hp
      · unfold quietEnd
        rw [dropWhile_noFin _ hno']
        rfl
    · cases hw
  case reading.eof n we peer q =>
    simp only [Option.some.injEq, Prod.mk.injEq] at hw
    obtain ⟨rfl, rfl⟩ := hw
    rw [latest_append _ _ (by simp [Obs.begins])]
    exact ⟨by simp, by simp, by simp, quietEnd_append _ _ h.quiet rfl⟩
  case writing.wrote chunk we peer n q =>
    have hp := hest we peer (.inr (.inr (.inr ⟨_, rfl⟩)))
    split at hw
    · simp only [Option.some.injEq, Prod.mk.injEq] at hw
      obtain ⟨rfl, rfl⟩ := hw
      exact h.same (by simp [Obs.begins]) rfl rfl rfl (by simp) (by simp_all) (by simp)
    · cases hw
  case resetting.flushed =>
    simp only [Option.some.injEq, Prod.mk.injEq] at hw
    obtain ⟨rfl, rfl⟩ := hw
    rw [List.append_nil]
    exact ⟨by simp [Mailbox.reset], by simp, by simp, h.quiet⟩
  case accepting.up =>
    have q := (hs.calm rfl).4
    split at hw
    all_goals
      simp only [Option.some.injEq, Prod.mk.injEq] at hw
      obtain ⟨rfl, rfl⟩ := hw
      exact h.same (by simp [Obs.begins]) rfl rfl rfl (by simp) (by simp_all) (by simp)
  case idle.woke | accepting.woke | dialing.woke =>
    split at hw
    · simp only [Option.some.injEq, Prod.mk.injEq] at hw
      obtain ⟨rfl, rfl⟩ := hw
      exact h.same (by simp [Obs.begins]) rfl rfl rfl (by simp) (by simp) (by simp)
    · cases hw
  case parked.woke we peer =>
    have hp := hest we peer (.inr (.inl rfl))
    split at hw
    · simp only [Option.some.injEq, Prod.mk.injEq] at hw
      obtain ⟨rfl, rfl⟩ := hw
      exact h.same (by simp [Obs.begins]) rfl rfl rfl (by simp) (by simp_all) (by simp)
    · cases hw
  case reading.woke n we peer =>
    obtain ⟨rfl, hp⟩ := hread _ _ _ rfl
    split at hw
    · simp only [Option.some.injEq, Prod.mk.injEq] at hw
      obtain ⟨rfl, rfl⟩ := hw
      exact h.same (by simp [Obs.begins]) rfl rfl rfl (by simp) (by simp_all) (by simp)
    · cases hw
  case flushing.flushed we peer q =>
    have hp := hest we peer (.inr (.inr (.inl rfl)))
    simp only [Option.some.injEq, Prod.mk.injEq] at hw
    obtain ⟨rfl, rfl⟩ := hw
    exact h.same (by simp [Obs.begins]) rfl rfl rfl (by simp) (by simp_all) (by simp)
  case dialing.up =>
    have q := (hs.calm rfl).4
    simp only [Option.some.injEq, Prod.mk.injEq] at hw
    obtain ⟨rfl, rfl⟩ := hw
    exact h.same (by simp [Obs.begins]) rfl rfl rfl (by simp) (by simp_all) (by simp)
  all_goals
    simp only [Option.some.injEq, Prod.mk.injEq] at hw
    obtain ⟨rfl, rfl⟩ := hw
    exact h.same (by simp [Obs.begins]) rfl rfl rfl (by simp) (by simp [Slot.down]) (by simp [Slot.down])

theorem Ends.step {s s' : Slot A} {e : Ev A} {t o : List (Obs A)} (h : Ends s (latest t)) (hs : Stands s)
    (hw : s.step e = some (s', o)) : Ends s' (latest (t ++ o)) := by
  cases e with
  | engine c =>
    simp only [Slot.step] at hw
    split at hw
    · have := h.call c
      simp only [Option.some.injEq] at hw
      rw [hw] at this
      exact this
    · cases hw
  | worker w => exact h.wakeup hs hw

/-! ### Runs -/

/-- Everything that holds of a slot with a history `t`. -/
structure Inv (s : Slot A) (t : List (Obs A)) : Prop where
  stands : Stands s
  holds : Holds s (latest t)
  ends : Ends s (latest t)
  awake : Awake s

theorem Inv.runs {s s' : Slot A} {es : List (Ev A)} {t o : List (Obs A)} (hr : s.runs es = some (s', o))
    (h : Inv s t) : Inv s' (t ++ o) := by
  induction es generalizing s t o with
  | nil =>
    simp only [Slot.runs, Option.some.injEq, Prod.mk.injEq] at hr
    obtain ⟨rfl, rfl⟩ := hr
    simpa using h
  | cons e es ih =>
    simp only [Slot.runs] at hr
    split at hr
    · cases hr
    · next s1 o1 hs =>
      simp only [Option.map_eq_some_iff] at hr
      obtain ⟨⟨s2, o2⟩, hr, he⟩ := hr
      simp only [Prod.mk.injEq] at he
      obtain ⟨rfl, rfl⟩ := he
      have := ih hr ⟨h.stands.step hs, h.holds.step h.stands hs, h.ends.step h.stands hs,
        h.awake.step h.stands hs⟩
      rwa [List.append_assoc] at this

theorem Reaches.inv {i o : Nat} {t : List (Obs A)} {s : Slot A} (h : Reaches i o t s) : Inv s t := by
  obtain ⟨es, h⟩ := h
  have := Inv.runs (t := []) h ⟨.new i o, Holds.new i o, .new i o, .new i o⟩
  simpa using this

/-! ### A command is carried out -/

/-- A command to open a connection waits for a worker that is free to take it. -/
structure Due (s : Slot A) (c : Cmd A) : Prop where
  quiet : Quiet s.mail
  command : s.mail.command = c
  free : s.pc = .top ∨ (s.pc = .idle ∧ s.wake = true)

/-- The call that carries a command out. -/
def Cmd.obs : Cmd A → Obs A
  | .listen p => .accept p
  | .dial r => .connect r
  | _ => .abort

theorem Due.step {s s' : Slot A} {c : Cmd A} {e : Ev A} {o : List (Obs A)} (h : Due s c)
    (hc : (∃ p, c = .listen p) ∨ ∃ r, c = .dial r) (he : e.silent = true) (hs : s.step e = some (s', o)) :
    (Due s' c ∧ o = []) ∨ o = [c.obs] := by
  obtain ⟨q, hcmd, hfree⟩ := h
  obtain ⟨m, wk, pc⟩ := s
  cases e with
  | engine k =>
    cases k <;> simp only [Ev.silent, Bool.false_eq_true] at he
    · have hin : m.inbound = [] := q.inb
      simp [Slot.step, Slot.allows, Slot.call, Slot.recv, hin] at hs
      obtain ⟨rfl, rfl⟩ := hs
      exact .inl ⟨⟨q, hcmd, hfree⟩, rfl⟩
    · have : m.established = false := q.established
      simp [Slot.step, Slot.allows, Slot.maySend, this] at hs
  | worker w =>
    simp only at hcmd hfree
    rcases hfree with rfl | ⟨rfl, rfl⟩
    · cases w <;> simp only [Slot.step, Slot.wakeup, reduceCtorEq] at hs
      rcases hc with ⟨p, rfl⟩ | ⟨r, rfl⟩
      all_goals
        simp only [Slot.runTop, hcmd, Option.some.injEq, Prod.mk.injEq] at hs
        exact .inr hs.2.symm
    · cases w <;> simp only [Slot.step, Slot.wakeup, reduceCtorEq, if_true] at hs
      simp only [Option.some.injEq, Prod.mk.injEq] at hs
      obtain ⟨rfl, rfl⟩ := hs
      exact .inl ⟨⟨q, hcmd, .inl rfl⟩, rfl⟩

theorem Due.runs {s s' : Slot A} {c : Cmd A} {es : List (Ev A)} {o : List (Obs A)} (h : Due s c)
    (hc : (∃ p, c = .listen p) ∨ ∃ r, c = .dial r) (he : ∀ e ∈ es, e.silent = true)
    (hs : s.runs es = some (s', o)) : (Due s' c ∧ o = []) ∨ ∃ o', o = c.obs :: o' := by
  induction es generalizing s o with
  | nil =>
    simp only [Slot.runs, Option.some.injEq, Prod.mk.injEq] at hs
    obtain ⟨rfl, rfl⟩ := hs
    exact .inl ⟨h, rfl⟩
  | cons e es ih =>
    simp only [Slot.runs] at hs
    split at hs
    · cases hs
    · next s1 o1 h1 =>
      simp only [Option.map_eq_some_iff] at hs
      obtain ⟨⟨s2, o2⟩, hr, heq⟩ := hs
      simp only [Prod.mk.injEq] at heq
      obtain ⟨rfl, rfl⟩ := heq
      rcases h.step hc (he e (by simp)) h1 with ⟨h, rfl⟩ | rfl
      · simpa using ih h (fun e' h' => he e' (by simp [h'])) hr
      · exact .inr ⟨_, rfl⟩

/-- The worker carries a waiting command out as soon as it is scheduled. -/
theorem Due.done {s : Slot A} {c : Cmd A} (h : Due s c) (hc : (∃ p, c = .listen p) ∨ ∃ r, c = .dial r) :
    ∃ ws s', (∀ w ∈ ws, ∃ x, w = Ev.worker x) ∧ s.runs ws = some (s', [c.obs]) := by
  obtain ⟨q, hcmd, hfree⟩ := h
  obtain ⟨m, wk, pc⟩ := s
  simp only at hcmd hfree
  rcases hfree with rfl | ⟨rfl, rfl⟩
  · rcases hc with ⟨p, rfl⟩ | ⟨r, rfl⟩
    · refine ⟨[.worker (.run 0)], ⟨{ m with resetDone := false }, false, .accepting p⟩, by simp, ?_⟩
      simp [Slot.runs, Slot.step, Slot.wakeup, Slot.runTop, hcmd, Cmd.obs]
    · refine ⟨[.worker (.run 0)], ⟨{ m with resetDone := false }, false, .dialing r⟩, by simp, ?_⟩
      simp [Slot.runs, Slot.step, Slot.wakeup, Slot.runTop, hcmd, Cmd.obs]
  · rcases hc with ⟨p, rfl⟩ | ⟨r, rfl⟩
    · refine ⟨[.worker .woke, .worker (.run 0)], ⟨{ m with resetDone := false }, false, .accepting p⟩, by simp, ?_⟩
      simp [Slot.runs, Slot.step, Slot.wakeup, Slot.runTop, hcmd, Cmd.obs]
    · refine ⟨[.worker .woke, .worker (.run 0)], ⟨{ m with resetDone := false }, false, .dialing r⟩, by simp, ?_⟩
      simp [Slot.runs, Slot.step, Slot.wakeup, Slot.runTop, hcmd, Cmd.obs]

/-! ### An aborted slot is given back -/

/-- An abort is pending, or the worker is past heeding one. -/
def Going (s : Slot A) : Prop :=
  s.mail.command = .abort ∨ s.pc = .aborting ∨ s.pc = .finishing ∨ s.pc = .resetting

/-- How many steps the worker has to take at most. -/
def Pc.rank : Pc A → Nat
  | .top => 1
  | .idle => 2
  | .accepting _ => 3
  | .relisten => 2
  | .dialing _ => 2
  | .est _ _ => 3
  | .aborting => 2
  | .finishing => 2
  | .writing _ _ _ => 5
  | .flushing _ _ => 4
  | .parked _ _ => 4
  | .reading _ _ _ => 4
  | .resetting => 1

theorem Going.wakeup {s s' : Slot A} {w : Wakeup A} {o : List (Obs A)} (h : Going s)
    (hu : ∀ p q, w ≠ .up p q) (hw : s.wakeup w = some (s', o)) :
    s'.reuseReady = true ∨ (Going s' ∧ s'.pc.rank < s.pc.rank) := by
  obtain ⟨m, wk, pc⟩ := s
  have hcmd : pc ≠ .aborting → pc ≠ .finishing → pc ≠ .resetting → m.command = .abort := by
    intro h1 h2 h3
    rcases h with h | h | h | h
    · exact h
    all_goals contradiction
  cases pc <;> cases w <;> simp only [Slot.wakeup, reduceCtorEq] at hw
  case accepting.up | dialing.up => exact absurd rfl (hu _ _)
  case top.run =>
    have hc := hcmd (by simp) (by simp) (by simp)
    simp only [Slot.runTop, hc, Option.some.injEq, Prod.mk.injEq] at hw
    obtain ⟨rfl, -⟩ := hw
    exact .inl rfl
  case est.run =>
    have hc := hcmd (by simp) (by simp) (by simp)
    simp only [Slot.runEst, hc, Option.some.injEq, Prod.mk.injEq] at hw
    obtain ⟨rfl, -⟩ := hw
    exact .inr ⟨.inr (.inl rfl), by simp [Pc.rank]⟩
  case resetting.flushed =>
    simp only [Option.some.injEq, Prod.mk.injEq] at hw
    obtain ⟨rfl, -⟩ := hw
    exact .inl rfl
  case idle.woke | accepting.woke | dialing.woke | parked.woke | reading.woke | reading.data | writing.wrote =>
    have hc := hcmd (by simp) (by simp) (by simp)
    split at hw
    · simp only [Option.some.injEq, Prod.mk.injEq] at hw
      obtain ⟨rfl, -⟩ := hw
      exact .inr ⟨by simp [Going, hc], by simp [Pc.rank]⟩
    · cases hw
  all_goals
    simp only [Option.some.injEq, Prod.mk.injEq] at hw
    obtain ⟨rfl, -⟩ := hw
    exact .inr ⟨by simp [Going, Slot.down, hcmd], by simp [Pc.rank, Slot.down]⟩

theorem Going.returns {s s' : Slot A} {ws : List (Wakeup A)} {o : List (Obs A)} (h : Going s)
    (hu : ∀ w ∈ ws, ∀ p q, w ≠ .up p q) (hl : s.pc.rank ≤ ws.length)
    (hr : s.runs (ws.map .worker) = some (s', o)) :
    ∃ k ≤ s.pc.rank, ∃ s1 o1, s.runs ((ws.take k).map .worker) = some (s1, o1) ∧ s1.reuseReady = true := by
  induction ws generalizing s s' o with
  | nil =>
    exfalso
    simp only [List.length_nil, Nat.le_zero] at hl
    revert hl
    cases s.pc <;> simp [Pc.rank]
  | cons w ws ih =>
    simp only [List.map_cons, Slot.runs, Slot.step] at hr
    split at hr
    · cases hr
    · next s1 o1 h1 =>
      simp only [Option.map_eq_some_iff] at hr
      obtain ⟨⟨s2, o2⟩, hr, -⟩ := hr
      have hpos : 1 ≤ s.pc.rank := by cases s.pc <;> simp [Pc.rank]
      rcases h.wakeup (hu w (by simp)) h1 with hd | ⟨hg, hlt⟩
      · refine ⟨1, hpos, s1, o1, ?_, hd⟩
        simp [Slot.runs, Slot.step, h1]
      · simp only [List.length_cons] at hl
        obtain ⟨k, hk, s3, o3, h3, hd⟩ := ih hg (fun w' h' => hu w' (by simp [h'])) (by omega) hr
        refine ⟨k + 1, by omega, s3, o1 ++ o3, ?_, hd⟩
        rw [List.take_succ_cons, List.map_cons]
        simp only [Slot.runs, Slot.step, h1, h3, Option.map_some]

theorem Pc.rank_le (p : Pc A) : p.rank ≤ 5 := by cases p <;> simp [Pc.rank]

end Verif.Embassy
