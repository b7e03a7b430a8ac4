import Verif.Proof.BridgeFed
/-
The payload events a bridge holds, and what pumping leaves behind.
-/
namespace Verif
namespace Bridge
variable {I A : Type} [DecidableEq I] {cfg : Cfg I A} {env : Env I A} {T : TEnv}

/-- The payload events a bridge has queued. -/
def evs (b : Bridge I A) : List (PayloadEvent I A) :=
  match b.stream with
  | none => []
  | some s => s.endpointEvents

/-- Payloads stay what they were, or go. -/
def EvsKept (b b' : Bridge I A) : Prop := b'.evs = b.evs ∨ b'.evs = []

theorem EvsKept.trans {a b c : Bridge I A} (h : EvsKept a b) (g : EvsKept b c) : EvsKept a c := by
  unfold EvsKept at *
  rcases g with g | g
  · rw [g]; exact h
  · exact .inr g

theorem kept_fail (b : Bridge I A) (r : LinkFail) : EvsKept b (b.fail r) := by
  unfold fail EvsKept
  split
  · exact .inl rfl
  · by_cases hp : b.phase = .recvClosed ∨ b.phase = .bothClosed
    · simp only [evs, if_pos hp]; exact .inl trivial
    · simp only [evs, if_neg hp]
      cases hs : b.stream <;> simp [Stream.discardPending]

theorem evs_fail (b : Bridge I A) (r : LinkFail) : ∀ ev ∈ (b.fail r).evs, ev ∈ b.evs := by
  rcases kept_fail b r with h | h <;> rw [h] <;> simp

/-- A bridge that fails while its receive half is open drops what it holds. -/
theorem evs_fail_open {b : Bridge I A} (r : LinkFail) (h : ¬ b.Late) : (b.fail r).evs = [] := by
  have hf : b.isFailed = false := by
    cases hf : b.isFailed with
    | false => rfl
    | true => exact absurd (late_of_failed hf) h
  unfold fail
  rw [if_neg (by simp [hf])]
  have : ¬ (b.phase = .recvClosed ∨ b.phase = .bothClosed) := by
    rintro (h1 | h1)
    · exact h (.inl h1)
    · exact h (.inr ((terminal_iff b).2 (.inl h1)))
  simp only [evs, if_neg this]
  cases b.stream <;> simp [Stream.discardPending]

theorem evs_failWithRetire (b : Bridge I A) (r : LinkFail) : ∀ ev ∈ (b.failWithRetire r).evs, ev ∈ b.evs :=
  evs_fail _ r

theorem evs_failWithRetire_open {b : Bridge I A} (r : LinkFail) (h : ¬ b.Late) : (b.failWithRetire r).evs = [] :=
  evs_fail_open (b := b.retire) r h

theorem evs_observeSendFin (b : Bridge I A) : b.observeSendFin.evs = b.evs := by
  unfold observeSendFin
  split <;> rfl

theorem evs_observeRecvFin (b : Bridge I A) : b.observeRecvFin.evs = b.evs := by
  unfold observeRecvFin
  split <;> rfl

theorem evs_closeSend {b b' : Bridge I A} {s : Stream I A} (h : CloseSend b s b') : ∀ ev ∈ b'.evs, ev ∈ b.evs := by
  cases h with
  | failed => exact evs_failWithRetire _ _
  | open_ => exact fun _ h => h
  | closed => rw [evs_observeSendFin]; exact fun _ h => h

theorem poll_length (s : Stream I A) (now : Nat) :
    (s.pollTransmit now).1.endpointEvents = s.endpointEvents ∨ (s.pollTransmit now).1.endpointEvents = [] := by
  rcases send_effect s now with ⟨h1, _⟩ | ⟨d, _, _, h1, _⟩ | ⟨p, h1, _, _, h2⟩ | ⟨h1, _⟩ <;> rw [h1] <;>
    first | exact .inl rfl | exact .inr rfl

theorem evs_pumpOut {b b' : Bridge I A} {now : Nat} (h : PumpOut T b now b') : ∀ ev ∈ b'.evs, ev ∈ b.evs := by
  have hp : ∀ s s' r, b.stream = some s → s.pollTransmit now = (s', r) →
      ∀ ev ∈ s'.endpointEvents, ev ∈ b.evs := by
    intro s s' r hs hr ev hev
    have := poll_events s now ev (by rw [hr]; exact hev)
    simpa [evs, hs] using this
  cases h with
  | idle => exact fun _ h => h
  | expired => exact evs_fail _ _
  | failed => exact evs_failWithRetire _ _
  | late => exact evs_failWithRetire _ _
  | quiet s s' b' hs _ _ _ hr hc => exact fun ev hev => hp s s' _ hs hr ev (evs_closeSend hc ev hev)
  | broken s s' chunks e hs _ _ hr _ => exact fun ev hev => hp s s' _ hs hr ev (evs_failWithRetire _ _ ev hev)
  | sent s s' chunks u b' hs _ _ _ hr _ hc => exact fun ev hev => hp s s' _ hs hr ev (evs_closeSend hc ev hev)

theorem kept_closeSend {b b' : Bridge I A} {s : Stream I A} (h : CloseSend b s b') : EvsKept b b' := by
  cases h with
  | failed => exact kept_fail b.retire _
  | open_ => exact .inl rfl
  | closed => exact .inl (evs_observeSendFin _)

theorem kept_pumpOut {b b' : Bridge I A} {now : Nat} (h : PumpOut T b now b') : EvsKept b b' := by
  have hp : ∀ s s' r (b1 : Bridge I A), b.stream = some s → s.pollTransmit now = (s', r) →
      b1.stream = some s' → EvsKept b b1 := by
    intro s s' r b1 hs hr h1
    have := poll_length s now
    rw [hr] at this
    simpa [EvsKept, evs, hs, h1] using this
  cases h with
  | idle => exact .inl rfl
  | expired => exact kept_fail _ _
  | failed => exact kept_fail b.retire _
  | late => exact kept_fail b.retire _
  | quiet s s' b' hs _ _ _ hr hc => exact (hp s s' _ { b with stream := some s' } hs hr rfl).trans (kept_closeSend hc)
  | broken s s' chunks e hs _ _ hr _ =>
    exact (hp s s' _ { b with stream := some s', sentAny := true } hs hr rfl).trans
      (kept_fail (Bridge.retire { b with stream := some s', sentAny := true }) _)
  | sent s s' chunks u b' hs _ _ _ hr _ hc =>
    exact (hp s s' _ { b with stream := some s', sentAny := true, records := b.records.write u, sealed := b.sealed + 1 } hs hr rfl).trans
      (kept_closeSend hc)

variable [DecidableEq A]

theorem queued_evs (b : Bridge I A) : b.queued = b.evs.length := by
  unfold queued evs; cases b.stream <;> rfl

theorem commitOne_evs {cmp : CmpOptions} {now : Nat} {e : Ep I A} {b : Bridge I A} {s : Stream I A}
    {ev : PayloadEvent I A} {rest : List (PayloadEvent I A)} {r : Ep I A × Bridge I A}
    (h : CommitOne cfg env T cmp now e b s ev rest r) : r.2.evs = rest ∨ r.2.evs = [] := by
  cases h with
  | quiet => exact .inl rfl
  | respond e' p b' _ hp => exact kept_pumpOut hp
  | close e' _ =>
    exact kept_fail (Bridge.retire { b with stream := some { s with endpointEvents := rest } }) _

/-- The fuel of the commit loop is enough: nothing stays queued. -/
theorem drainEvents_done (cmp : CmpOptions) (now : Nat) (fuel : Nat) :
    ∀ (e : Ep I A) (b : Bridge I A) (log : List (Ep.Op I A)), b.queued ≤ fuel →
      (drainEvents cfg env T cmp now fuel e b log).2.1.queued = 0 := by
  induction fuel with
  | zero => intro e b log h; simpa [drainEvents] using h
  | succ fuel ih =>
    intro e b log h
    simp only [drainEvents]
    split
    · next hs => simp [queued, hs]
    · next s hs =>
      split
      · next he => simp [queued, hs, he]
      · next ev rest he =>
        refine ih _ _ _ ?_
        have hq : b.queued = rest.length + 1 := by simp [queued, hs, he]
        rw [queued_evs]
        rcases commitOne_evs (commitOne_cases (cfg := cfg) (env := env) (T := T) cmp now e b s ev rest) with h1 | h1 <;>
          rw [h1] <;> simp <;> omega

/-- A bridge whose receive half is closed holds no payload. -/
def Calm (b : Bridge I A) : Prop := b.Late → b.evs = []

theorem Calm.fail {b : Bridge I A} (h : b.Calm) (r : LinkFail) : (b.fail r).Calm := by
  intro _
  by_cases hl : b.Late
  · rcases kept_fail b r with h1 | h1
    · rw [h1, h hl]
    · exact h1
  · exact evs_fail_open r hl

theorem Calm.open_ {b : Bridge I A} (h : ¬ b.Late) : b.Calm := fun hl => absurd hl h

/-! ### Deadlines -/

/-- The bridge was serviced at `now`: no deadline that has passed is left. -/
def Swept (now : Nat) (b : Bridge I A) : Prop :=
  (b.stream = none → b.phase = .handshaking → now < b.deadline) ∧
  ∀ s, b.stream = some s → now < b.deadline ∨ s.expired now = false

theorem closeSend_stream {b b' : Bridge I A} {s : Stream I A} (h : CloseSend b s b') (ht : b'.isTerminal = false) :
    s.isFailed = false ∧ b'.stream = b.stream ∧ b'.deadline = b.deadline := by
  cases h with
  | failed => rw [terminal_of_failed (failWithRetire_failed _ _)] at ht; cases ht
  | open_ hf => exact ⟨hf, rfl, rfl⟩
  | closed hf => exact ⟨hf, by unfold observeSendFin; split <;> rfl, by unfold observeSendFin; split <;> rfl⟩

theorem pollTransmit_deadline (s : Stream I A) (now : Nat) : (s.pollTransmit now).1.deadline = s.deadline := by
  unfold Stream.pollTransmit
  split
  · rfl
  · rfl
  · split
    · rfl
    · split
      · rfl
      · simp only []
        split <;> rfl

theorem pollTransmit_fresh (s : Stream I A) (now : Nat) (hf : (s.pollTransmit now).1.isFailed = false)
    (hd : s.isDone = false) : (s.pollTransmit now).1.expired now = false := by
  have h1 : (s.pollTransmit now).1.expired now = s.expired now := by
    unfold Stream.expired; rw [pollTransmit_deadline]
  rw [h1]
  cases he : s.expired now with
  | false => rfl
  | true =>
    exfalso
    unfold Stream.pollTransmit at hf
    split at hf
    · next h => simp [Stream.isDone, h] at hd
    · next h => simp [Stream.isFailed, h] at hf
    · rw [if_pos he] at hf; simp [Stream.enterFailed, Stream.isFailed] at hf

theorem pumpOut_swept {b b' : Bridge I A} {now : Nat} (h : PumpOut T b now b') (ht : b'.isTerminal = false) :
    b'.Swept now := by
  have key : ∀ s s' o (b1 : Bridge I A), b.stream = some s → s.isFailed = false →
      (b.deadline ≤ now → s.isDone = true → b.isTerminal = true) →
      s.pollTransmit now = (s', o) → b1.stream = some s' → b1.deadline = b.deadline → b1.phase = b.phase →
      CloseSend b1 s' b' → b'.Swept now := by
    intro s s' o b1 hs hsf hd hr h1 h2 h3 hc
    obtain ⟨g1, g2, g3⟩ := closeSend_stream hc ht
    refine ⟨fun hn => ?_, fun s2 hs2 => ?_⟩
    · rw [g2, h1] at hn; cases hn
    · rw [g2, h1] at hs2
      cases hs2
      rw [g3, h2]
      cases hdone : s.isDone with
      | false =>
        right
        have := pollTransmit_fresh s now (by rw [hr]; exact g1) hdone
        rw [hr] at this; exact this
      | true =>
        left
        by_cases hdl : b.deadline ≤ now
        · exfalso
          have := hd hdl hdone
          have h4 : b1.isTerminal = true := by unfold isTerminal at this ⊢; rw [h3]; exact this
          have := closeSend_terminal hc h4
          rw [this] at ht; cases ht
        · omega
  cases h with
  | idle hs hp => exact ⟨fun _ => hp, fun s h => by rw [hs] at h; cases h⟩
  | expired => rw [terminal_of_failed (fail_failed _ _)] at ht; cases ht
  | failed => rw [terminal_of_failed (failWithRetire_failed _ _)] at ht; cases ht
  | late => rw [terminal_of_failed (failWithRetire_failed _ _)] at ht; cases ht
  | broken => rw [terminal_of_failed (failWithRetire_failed _ _)] at ht; cases ht
  | quiet s s' _ hs _ hsf hd hr hc => refine key s s' _ _ hs hsf hd hr ?_ ?_ ?_ hc <;> rfl
  | sent s s' _ _ _ hs _ hsf hd hr _ hc => refine key s s' _ _ hs hsf hd hr ?_ ?_ ?_ hc <;> rfl

theorem commitOne_swept {cmp : CmpOptions} {now : Nat} {e : Ep I A} {b : Bridge I A} {s : Stream I A}
    {ev : PayloadEvent I A} {rest : List (PayloadEvent I A)} {r : Ep I A × Bridge I A} (hs : b.stream = some s)
    (hc : CommitOne cfg env T cmp now e b s ev rest r) (h : b.isTerminal = true ∨ b.Swept now) :
    r.2.isTerminal = true ∨ r.2.Swept now := by
  cases hc with
  | quiet e' _ =>
    rcases h with h | h
    · exact .inl h
    · refine .inr ⟨fun hn => (by cases hn), fun s2 hs2 => ?_⟩
      cases hs2
      exact h.2 s hs
  | respond e' p b' _ hp =>
    cases ht : b'.isTerminal with
    | true => exact .inl rfl
    | false => exact .inr (pumpOut_swept hp ht)
  | close e' _ => exact .inl (terminal_of_failed (failWithRetire_failed _ _))

theorem drainEvents_swept (cmp : CmpOptions) (now : Nat) (fuel : Nat) :
    ∀ (e : Ep I A) (b : Bridge I A) (log : List (Ep.Op I A)), b.Swept now →
      (drainEvents cfg env T cmp now fuel e b log).2.1.isTerminal = false →
      (drainEvents cfg env T cmp now fuel e b log).2.1.Swept now := by
  induction fuel with
  | zero => intro e b log h _; exact h
  | succ fuel ih =>
    intro e b log h ht
    simp only [drainEvents] at ht ⊢
    cases hs : b.stream with
    | none => simp only [hs] at ht ⊢; exact h
    | some s =>
      simp only [hs] at ht ⊢
      cases he : s.endpointEvents with
      | nil => simp only [he] at ht ⊢; exact h
      | cons ev rest =>
        simp only [he] at ht ⊢
        have hnt : (commitOne cfg env T cmp now e b s ev rest).2.isTerminal = false := by
          cases hc : (commitOne cfg env T cmp now e b s ev rest).2.isTerminal with
          | false => rfl
          | true => rw [drainEvents_terminal _ _ _ _ _ _ hc] at ht; cases ht
        refine ih _ _ _ ?_ ht
        have hc := commitOne_cases (cfg := cfg) (env := env) (T := T) cmp now e b s ev rest
        generalize commitOne cfg env T cmp now e b s ev rest = r at hc hnt
        cases hc with
        | quiet e' _ =>
          refine ⟨fun hn => (by cases hn), fun s2 hs2 => ?_⟩
          cases hs2
          exact h.2 s hs
        | respond e' p b' _ hp => exact pumpOut_swept hp hnt
        | close e' _ => rw [terminal_of_failed (failWithRetire_failed _ _)] at hnt; cases hnt

theorem drainPayloadOnly_swept (cmp : CmpOptions) (e : Ep I A) (b : Bridge I A) (now : Nat) (h : b.Swept now)
    (ht : (drainPayloadOnly cfg env T cmp e b now).2.1.isTerminal = false) :
    (drainPayloadOnly cfg env T cmp e b now).2.1.Swept now := by
  unfold drainPayloadOnly at ht ⊢
  split at ht
  · next hp => rw [if_pos hp]; exact drainEvents_swept _ _ _ _ _ _ h ht
  · next hp => rw [if_neg hp]; exact h

end Bridge

end Verif
