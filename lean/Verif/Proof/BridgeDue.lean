import Verif.Proof.CoordShape
import Verif.Proof.StreamChunk
/-
The deadline of a bridge: what moves it, and that its stream keeps to the same one.
-/
namespace Verif
namespace Bridge
variable {I A : Type} {cfg : Cfg I A} {env : Env I A} {T : TEnv}

/-- The stream has the deadline of its bridge. -/
def Paced (b : Bridge I A) : Prop := ∀ s, b.stream = some s → s.deadline = some b.deadline

/-- `b'` has the deadline of `b`, and its stream keeps to it. -/
structure Pace (b b' : Bridge I A) : Prop where
  due : b'.deadline = b.deadline
  paced : b.Paced → b'.Paced

theorem Pace.refl (b : Bridge I A) : Pace b b := ⟨rfl, id⟩

theorem Pace.trans {a b c : Bridge I A} (h : Pace a b) (g : Pace b c) : Pace a c :=
  ⟨g.due.trans h.due, fun x => g.paced (h.paced x)⟩

/-- The stream is replaced by one with the same deadline. -/
theorem Pace.set {b b' : Bridge I A} {s s' : Stream I A} (h1 : b'.deadline = b.deadline) (h2 : b.stream = some s)
    (h3 : b'.stream = some s') (h4 : s'.deadline = s.deadline) : Pace b b' :=
  ⟨h1, fun hp s2 hs2 => by rw [h3] at hs2; cases hs2; rw [h4, h1]; exact hp s h2⟩

theorem Pace.same {b b' : Bridge I A} (h1 : b'.deadline = b.deadline) (h2 : b'.stream = b.stream) : Pace b b' :=
  ⟨h1, fun hp s hs => by rw [h1]; exact hp s (by rw [← h2]; exact hs)⟩

theorem Pace.fail (b : Bridge I A) (r : LinkFail) : Pace b (b.fail r) := by
  unfold Bridge.fail
  split
  · exact .refl b
  · refine ⟨rfl, fun hp s hs => ?_⟩
    simp only [] at hs
    split at hs
    · exact hp s hs
    · rw [Option.map_eq_some_iff] at hs
      obtain ⟨s0, h0, rfl⟩ := hs
      exact hp s0 h0

theorem Pace.failWithRetire (b : Bridge I A) (r : LinkFail) : Pace b (b.failWithRetire r) :=
  (Pace.same rfl rfl : Pace b b.retire).trans (.fail _ r)

theorem Pace.observeSendFin (b : Bridge I A) : Pace b b.observeSendFin := by
  unfold Bridge.observeSendFin
  split <;> exact .same rfl rfl

theorem Pace.observeRecvFin (b : Bridge I A) : Pace b b.observeRecvFin := by
  unfold Bridge.observeRecvFin
  split <;> exact .same rfl rfl

theorem Pace.closeSend {b b' : Bridge I A} {s : Stream I A} (h : CloseSend b s b') : Pace b b' := by
  cases h with
  | failed => exact .failWithRetire _ _
  | open_ => exact .refl _
  | closed => exact (Pace.same rfl rfl : Pace b { b with finSent := true }).trans (.observeSendFin _)

theorem Pace.pumpOut [DecidableEq I] [DecidableEq A] {b b' : Bridge I A} {now : Nat} (h : PumpOut T b now b') : Pace b b' := by
  have hd : ∀ {s s' : Stream I A} {o}, s.pollTransmit now = (s', o) → s'.deadline = s.deadline := by
    intro s s' o h
    have := pollTransmit_deadline s now
    rw [h] at this; exact this
  cases h with
  | idle => exact .refl _
  | expired => exact .fail _ _
  | failed => exact .failWithRetire _ _
  | late => exact .failWithRetire _ _
  | quiet s s' _ hs _ _ _ hr hc =>
    exact (Pace.set (b := b) (b' := { b with stream := some s' }) rfl hs rfl (hd hr)).trans (.closeSend hc)
  | broken s s' chunks e hs _ _ hr =>
    exact (Pace.set (b := b) (b' := { b with stream := some s', sentAny := true }) rfl hs rfl (hd hr)).trans (.failWithRetire _ _)
  | sent s s' chunks u _ hs _ _ _ hr _ hc =>
    exact (Pace.set (b := b) (b' := { b with stream := some s', sentAny := true, records := b.records.write u, sealed := b.sealed + 1 })
      rfl hs rfl (hd hr)).trans (.closeSend hc)

section
variable [DecidableEq I] {CI : DataCodec I} {CA : DataCodec A}

theorem drainUnits_deadline {ring : Option Keyring} {max now : Nat} (fuel : Nat) : ∀ (s : Stream I A) (buf : Bytes),
    (drainUnits CI CA T ring max now fuel s buf).1.deadline = s.deadline := by
  induction fuel with
  | zero => intro s buf; rfl
  | succ fuel ih =>
    intro s buf
    simp only [drainUnits]
    split
    · rfl
    · rfl
    · next plain used _ =>
      have h := (handleData_frame (CI := CI) (CA := CA) s plain now).1
      split
      · next s1 e hr => rw [hr] at h; exact h
      · next s1 hr => rw [hr] at h; exact (ih _ _).trans h

theorem Pace.pumpIn (b : Bridge I A) (s : Stream I A) (input : Bytes) (eof : Bool) (now : Nat) (hs : b.stream = some s) :
    Pace b (b.pumpIn CI CA T s input eof now) := by
  cases ht : b.isTerminal with
  | true =>
    have : b.pumpIn CI CA T s input eof now = b := by simp [Bridge.pumpIn, ht]
    rw [this]; exact .refl b
  | false =>
    have h := pumpIn_cases CI CA T b s input eof now ht
    generalize b.pumpIn CI CA T s input eof now = b' at h
    have hd : ∀ {s' : Stream I A} {left : Bytes} {d : Drained},
        drainUnits CI CA T b.ring b.max now ((b.accum ++ (b.records.recv input).1.read.2).length + 1) s
          (b.accum ++ (b.records.recv input).1.read.2) = (s', left, d) → s'.deadline = s.deadline := by
      intro s' left d h
      have := drainUnits_deadline (CI := CI) (CA := CA) (T := T) (ring := b.ring) (max := b.max) (now := now)
        ((b.accum ++ (b.records.recv input).1.read.2).length + 1) s (b.accum ++ (b.records.recv input).1.read.2)
      rw [h] at this; exact this
    have hh : ∀ {s' s'' : Stream I A} {o}, s'.handleData CI CA [] now = (s'', o) → s''.deadline = s'.deadline := by
      intro s' s'' o h
      have := (handleData_frame (CI := CI) (CA := CA) s' [] now).1
      rw [h] at this; exact this
    have hset : ∀ (s' : Stream I A) (left : Bytes), s'.deadline = s.deadline → Pace b
        { b with records := (b.records.recv input).1.read.1, stream := some s', accum := left } :=
      fun s' left h => .set rfl hs rfl h
    cases h with
    | rejected =>
      exact (Pace.same rfl rfl : Pace b { b with records := (b.records.recv input).1 }).trans (.failWithRetire _ _)
    | bad s' left _ _ h => exact (hset s' left (hd h)).trans (.failWithRetire _ _)
    | more s' left _ h => exact hset s' left (hd h)
    | cut s' left _ h => exact (hset s' left (hd h)).trans (.failWithRetire _ _)
    | refused s' s'' _ _ h _ h2 => exact (hset s'' [] ((hh h2).trans (hd h))).trans (.failWithRetire _ _)
    | ended s' s'' _ h _ h2 => exact (hset s'' [] ((hh h2).trans (hd h))).trans (.observeRecvFin _)

theorem Pace.intake (b : Bridge I A) (data : Bytes) : Pace b (b.intakeHandshaking data) := by
  unfold intakeHandshaking
  simp only []
  split
  · exact (Pace.same rfl rfl : Pace b { b with records := (b.records.recv data).1 }).trans (.fail _ _)
  · exact .same rfl rfl

theorem Pace.feed (b : Bridge I A) (data : Bytes) (now : Nat) : Pace b (b.feed CI CA T data now) := by
  unfold Bridge.feed
  split
  · exact .refl b
  · split
    · split
      · split
        · exact .fail b _
        · exact (Pace.same rfl rfl : Pace b { b with pendingEof := true }).trans (.intake _ _)
      · exact .intake _ _
    · next hs => exact .pumpIn _ _ _ _ _ hs

theorem Pace.replay (b : Bridge I A) (now : Nat) : Pace b (b.replay CI CA T now) := by
  unfold Bridge.replay
  split
  · exact .refl b
  · next hs =>
    split
    · exact .refl b
    · exact .pumpIn _ _ _ _ _ hs

variable [DecidableEq A]

/-- A commit keeps the deadline, or the response it brings gives a new one. -/
theorem commitOne_due {b : Bridge I A} {e : Ep I A} {s : Stream I A} {ev : PayloadEvent I A}
    {rest : List (PayloadEvent I A)} {cmp : CmpOptions} {now : Nat} {r : Ep I A × Bridge I A}
    (hs : b.stream = some s) (h : CommitOne cfg env T cmp now e b s ev rest r) :
    (b.Paced → r.2.Paced) ∧ (r.2.deadline = b.deadline ∨ r.2.deadline = now + cfg.streamTimeout) := by
  cases h with
  | quiet =>
    have h := Pace.set (b := b) (b' := { b with stream := some { s with endpointEvents := rest } }) rfl hs rfl rfl
    exact ⟨h.paced, .inl h.due⟩
  | respond e' p b' _ hp =>
    have h := Pace.pumpOut hp
    refine ⟨fun _ => h.paced ?_, .inr h.due⟩
    intro s2 hs2
    cases hs2
    rfl
  | close =>
    have h := (Pace.set (b := b) (b' := { b with stream := some { s with endpointEvents := rest } }) rfl hs rfl rfl).trans
      (.failWithRetire _ .admissionClosed)
    exact ⟨h.paced, .inl h.due⟩
end

theorem Pace.transmit (b : Bridge I A) : Pace b b.transmit.1 := .same rfl rfl

theorem Pace.setEncryption (b : Bridge I A) (ring : Option Keyring) : Pace b (b.setEncryption ring) :=
  (Pace.same rfl rfl : Pace b { b with ring := ring }).trans (.fail _ _)

theorem Pace.setCompression (b : Bridge I A) (cmp : CmpOptions) : Pace b (b.setCompression cmp) := .same rfl rfl

/-- A serviced bridge is due later. -/
theorem Swept.due {b : Bridge I A} {now : Nat} (h : b.Swept now) (hp : b.Paced)
    (hi : b.stream = none → b.phase = .handshaking) : now < b.deadline := by
  cases hs : b.stream with
  | none => exact h.1 hs (hi hs)
  | some s =>
    rcases h.2 s hs with h1 | h1
    · exact h1
    · unfold Stream.expired at h1
      rw [hp s hs] at h1
      simpa using h1

end Bridge

namespace Coord
variable {I A : Type} [DecidableEq I] [DecidableEq A] {cfg : Cfg I A} {env : Env I A} {X : XCfg} {T : TEnv}
open Bridge

theorem Pace.bstep {b b' : Bridge I A} (h : BStep env T b b') : Pace b b' := by
  cases h with
  | replay => exact .replay _ _
  | pumpOut => exact .pumpOut (pumpOut_cases _ _)

theorem Pace.feedAll (b : Bridge I A) (bytes : Bytes) (eof : Bool) (now : Nat) :
    Pace b (feedAll env T bytes eof now b) := by
  unfold Coord.feedAll
  simp only []
  by_cases hb : bytes = [] <;> cases eof <;> simp only [hb, if_true, if_false, Bool.false_eq_true]
  · exact .refl b
  · exact .feed _ _ _
  · exact .feed _ _ _
  · exact (Bridge.Pace.feed _ _ _).trans (.feed _ _ _)

omit [DecidableEq A] in
/-- A minted stream starts with a deadline. -/
theorem minted_due [DecidableEq A] {e : Ep I A} {mint : Mint A} {now : Nat} {s : Stream I A}
    (h : (e.step cfg env (mintOp mint now)).2 = .stream (some s)) :
    s.pollTimeout = s.deadline ∧ s.deadline ≠ none ∧ ∀ peer, mint = .inbound peer → s.deadline = some (now + cfg.streamTimeout) := by
  cases mint with
  | outbound sid =>
    simp only [mintOp, Ep.step, Ep.Out.stream.injEq] at h
    unfold Ep.dialSucceeded at h
    split at h
    · cases h
    · simp only [] at h
      split at h
      · cases h
      · split at h
        · cases h
        · simp only [Option.some.injEq] at h
          subst h
          exact ⟨rfl, by simp [Stream.fresh], by simp⟩
  | inbound peer =>
    simp only [mintOp, Ep.step, Ep.Out.stream.injEq] at h
    unfold Ep.acceptStream at h
    split at h
    · cases h
    · simp only [Option.some.injEq] at h
      subst h
      exact ⟨rfl, by simp [Stream.fresh], fun _ _ => rfl⟩

omit [DecidableEq I] [DecidableEq A] in
theorem promote_due {b : Bridge I A} {s : Stream I A} {d : Nat} (h1 : s.pollTimeout = s.deadline) (h2 : s.deadline = some d) :
    (b.promote s).deadline = d ∧ (b.promote s).Paced := by
  have e : (b.promote s).deadline = d := by simp [Bridge.promote, h1, h2]
  refine ⟨e, fun s2 hs2 => ?_⟩
  rw [e]
  cases hs2
  exact h2

end Coord
end Verif
