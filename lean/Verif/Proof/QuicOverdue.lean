import Verif.Proof.QuicResidue
/-
Exchanges that ran out: what moving the bytes of an exchange at a given time leaves of it.
-/
namespace Verif
section
variable {I A : Type} [DecidableEq I] {CI : DataCodec I} {CA : DataCodec A}

namespace Stream

/-- The deadline is the same, and a failed stream stays failed. -/
def Dated (s s' : Stream I A) : Prop := s'.deadline = s.deadline ∧ (s.isFailed = true → s'.isFailed = true)

omit [DecidableEq I] in
theorem Dated.refl (s : Stream I A) : Dated s s := ⟨rfl, fun h => h⟩
omit [DecidableEq I] in
theorem Dated.trans {a b c : Stream I A} (h : Dated a b) (h2 : Dated b c) : Dated a c :=
  ⟨h2.1.trans h.1, fun x => h2.2 (h.2 x)⟩

theorem dispatch_dated {s s' : Stream I A} {m : Message I A} {now : Nat}
    (h : dispatch CI CA s m now = .ok s') : s'.deadline = s.deadline := by
  unfold dispatch at h
  split at h
  · split at h <;> cases h; rfl
  · split at h
    · split at h <;> cases h; rfl
    · cases h
  · cases h; rfl
  · split at h
    · cases h; rfl
    · split at h
      · cases h
      · split at h <;> cases h; rfl
    · cases h; rfl
    · cases h
  all_goals cases h

theorem handleData_dated (s : Stream I A) (d : Bytes) (now : Nat) : Dated s (s.handleData CI CA d now).1 := by
  have hf : ∀ {s' : Stream I A}, (∀ e, s.phase ≠ .failed e) → s'.deadline = s.deadline → Dated s s' := by
    intro s' hp hd
    refine ⟨hd, fun h => ?_⟩
    unfold isFailed at h
    split at h
    · next e he => exact absurd he (hp e)
    · cases h
  unfold handleData
  split
  · exact .refl _
  · next hp =>
    split
    · exact .refl _
    · exact hf (by rw [hp]; intro e h; cases h) rfl
  · next h0 _ =>
    apply hf h0
    split
    · next s' h =>
      unfold handleDataInner at h
      split at h
      · cases h
      · split at h
        · split at h <;> first
            | cases h
            | (cases h; rfl)
            | (split at h <;> cases h; rfl)
          all_goals rfl
        · split at h
          · cases h
          · unfold tryDecodeFrame at h
            split at h
            · cases h
            · cases h; rfl
            · dsimp only at h
              split at h
              · cases h
              · split at h
                · cases h
                · split at h
                  · cases h
                  · next s1 h1 =>
                    split at h
                    · cases h
                    · cases h
                      have := dispatch_dated h1
                      exact this
    · rfl

omit [DecidableEq I] in
theorem pollTransmit_dated (s : Stream I A) (now : Nat) : (s.pollTransmit now).1.deadline = s.deadline := by
  unfold pollTransmit
  split
  · rfl
  · rfl
  · split
    · rfl
    · split
      · rfl
      · dsimp only
        split <;> rfl

omit [DecidableEq I] in
theorem handleTimeout_dated (s : Stream I A) (now : Nat) : Dated s (s.handleTimeout now) := by
  unfold handleTimeout
  split
  · split
    · exact .refl _
    · exact .refl _
    · exact ⟨rfl, fun _ => rfl⟩
  · exact .refl _

/-- Sending after the deadline fails a stream that is not done. -/
theorem pollTransmit_late {s : Stream I A} {now d : Nat} (hd : s.deadline = some d) (hn : d ≤ now) (hf : s.isFailed = false)
    (hx : s.isDone = false) : (s.pollTransmit now).1.isFailed = true := by
  unfold pollTransmit
  split
  · next h => unfold isDone at hx; rw [h] at hx; cases hx
  · next h => unfold isFailed at hf; rw [h] at hf; cases hf
  · rw [if_pos (by unfold expired; rw [hd]; exact decide_eq_true hn)]
    rfl

end Stream

theorem drainUnits_dated {T : TEnv} (ring : Option Keyring) (max now : Nat) :
    ∀ (fuel : Nat) (s : Stream I A) (buf : Bytes),
      Stream.Dated s (Bridge.drainUnits CI CA T ring max now fuel s buf).1 := by
  intro fuel
  induction fuel with
  | zero => intro s buf; exact .refl s
  | succ n ih =>
    intro s buf
    simp only [Bridge.drainUnits]
    split
    · exact .refl s
    · exact .refl s
    · next plain used _ =>
      split
      · next s' _ h =>
        have := Stream.handleData_dated (CI := CI) (CA := CA) s plain now
        rw [h] at this; exact this
      · next s' h =>
        have := Stream.handleData_dated (CI := CI) (CA := CA) s plain now
        rw [h] at this; exact this.trans (ih _ _)
end

namespace QBridge
open Map
variable {I A : Type} [DecidableEq I]

/-- The deadlines are the same, a failed stream stays failed and a bridge that is done stays done. -/
structure Timed (b b' : QBridge I A) : Prop where
  deadline : b'.deadline = b.deadline
  stream : Stream.Dated b.stream b'.stream
  terminal : b.isTerminal = true → b'.isTerminal = true

omit [DecidableEq I] in
theorem Timed.refl (b : QBridge I A) : Timed b b := ⟨rfl, .refl _, fun h => h⟩
omit [DecidableEq I] in
theorem Timed.trans {a b c : QBridge I A} (h : Timed a b) (h2 : Timed b c) : Timed a c :=
  ⟨h2.deadline.trans h.deadline, h.stream.trans h2.stream, fun x => h2.terminal (h.terminal x)⟩

omit [DecidableEq I] in
theorem fail_timed (b : QBridge I A) (r : LinkFail) : Timed b (b.fail r) := by
  refine ⟨?_, ?_, fun _ => fail_terminal b r⟩
  · unfold fail; split <;> rfl
  · unfold fail
    split
    · exact .refl _
    · dsimp only
      split
      · exact .refl _
      · exact ⟨rfl, fun h => h⟩

omit [DecidableEq I] in
theorem drop_timed (b : QBridge I A) (r : LinkFail) : Timed b (b.drop r) :=
  Timed.trans (b := { b with pendingOut := [] }) ⟨rfl, .refl _, fun h => h⟩ (fail_timed _ r)

omit [DecidableEq I] in
theorem drop_terminal (b : QBridge I A) (r : LinkFail) : (b.drop r).isTerminal = true := fail_terminal _ r

omit [DecidableEq I] in
theorem recvFin_timed (b : QBridge I A) : Timed b b.observeRecvFin := by
  refine ⟨?_, ?_, ?_⟩
  · unfold observeRecvFin; split <;> rfl
  · unfold observeRecvFin; split <;> exact .refl _
  · intro h
    unfold observeRecvFin
    split
    · next hp => unfold isTerminal at h; rw [hp] at h; cases h
    · rfl
    · exact h

omit [DecidableEq I] in
theorem sendFin_timed (b : QBridge I A) : Timed b b.observeSendFin := by
  refine ⟨?_, ?_, ?_⟩
  · unfold observeSendFin; split <;> rfl
  · unfold observeSendFin; split <;> exact .refl _
  · intro h
    unfold observeSendFin
    split
    · next hp => unfold isTerminal at h; rw [hp] at h; cases h
    · rfl
    · exact h

variable {CI : DataCodec I} {CA : DataCodec A} {T : TEnv}

theorem takeUnits_timed (b : QBridge I A) (now : Nat) : Timed b (b.takeUnits CI CA T now).1 :=
  ⟨rfl, drainUnits_dated none b.max now _ b.stream b.accum, fun h => h⟩

theorem takeChunk_timed (b : QBridge I A) (bytes : Bytes) (now : Nat) : Timed b (b.takeChunk CI CA T bytes now).1 := by
  have hu : ∀ b' : QBridge I A, Timed b b' → Timed b (b'.takeUnits CI CA T now).1 :=
    fun b' h => h.trans (takeUnits_timed b' now)
  unfold takeChunk
  dsimp only
  split
  · exact hu _ ⟨rfl, .refl _, fun h => h⟩
  · split
    · apply hu
      split <;> exact ⟨rfl, .refl _, fun h => h⟩
    · exact ⟨rfl, .refl _, fun h => h⟩
    · exact ⟨rfl, .refl _, fun h => h⟩

omit [DecidableEq I] in
theorem gather_deadline (b : QBridge I A) (now : Nat) : (b.gather T now).deadline = b.deadline ∧
    (b.gather T now).stream = (b.stream.pollTransmit now).1 := by
  have h : b.putLabel.deadline = b.deadline ∧ b.putLabel.stream = b.stream := by unfold putLabel; split <;> exact ⟨rfl, rfl⟩
  unfold gather
  dsimp only
  rw [h.2]
  split
  · next hx => exact ⟨h.1, by rw [hx]⟩
  · next hx => exact ⟨h.1, by rw [hx]⟩

theorem BMove.timed {b b' : QBridge I A} (h : BMove CI CA T b b') : Timed b b' := by
  cases h with
  | flag q => exact ⟨rfl, .refl _, fun h => h⟩
  | chunk bytes now _ => exact takeChunk_timed b bytes now
  | refuse bytes now r => exact (takeChunk_timed b bytes now).trans (drop_timed _ r)
  | cut now r =>
    exact Timed.trans (b := { b with stream := (b.stream.handleData CI CA [] now).1 })
      ⟨rfl, Stream.handleData_dated _ _ _, fun h => h⟩ (drop_timed _ r)
  | recvFin now _ _ => exact recvFin_timed b
  | late r _ => exact (recvFin_timed b).trans (drop_timed _ r)
  | sendFin => exact sendFin_timed b
  | drop r => exact drop_timed b r
  | fail r => exact fail_timed b r
  | gather now hf hs =>
    have := gather_deadline (T := T) b now
    refine ⟨this.1, ⟨by rw [this.2, Stream.pollTransmit_dated], fun h => by rw [hs] at h; cases h⟩, fun h => ?_⟩
    exact terminal_of_phase (gather_phase T b now) h
  | wrote n => exact ⟨rfl, .refl _, fun h => h⟩
  | finish => exact ⟨rfl, .refl _, fun h => h⟩
  | timeout now r =>
    exact Timed.trans (b := { b with stream := b.stream.handleTimeout now })
      ⟨rfl, Stream.handleTimeout_dated _ _, fun h => h⟩ (drop_timed _ r)

theorem BMoves.timed {b b' : QBridge I A} (h : BMoves CI CA T b b') : Timed b b' := by
  induction h with
  | refl => exact .refl _
  | snoc _ hm ih => exact ih.trans hm.timed

variable [DecidableEq A] {Q : Quinn A}

theorem pumpIn_timed (hS : Q.Sound) (b : QBridge I A) (t : ConnTable Q.C Q.V A) (now : Nat) :
    Timed b (b.pumpIn CI CA T Q t now).1 := by
  have h := (onConn_spec (D := True) (P := Recvd CI CA T b) b t _ (.inl (.refl b))
    (fun c => receive_spec (CI := CI) (CA := CA) (T := T) hS b now c)).1
  change Recvd CI CA T b (b.pumpIn CI CA T Q t now).1 at h
  rcases h with h | ⟨b0, h1, _, h2⟩
  · exact h.timed
  · rw [h2]; exact h1.timed.trans (recvFin_timed b0)

theorem pumpOut_timed (hS : Q.Sound) (b : QBridge I A) (t : ConnTable Q.C Q.V A) (now : Nat) :
    Timed b (b.pumpOut Q T t now).1 := by
  let CI' : DataCodec I := ⟨fun _ => none, fun _ => none⟩
  let CA' : DataCodec A := ⟨fun _ => none, fun _ => none⟩
  exact (pumpOut_spec (CI := CI') (CA := CA') (T := T) (D := True) hS b t now).1.timed

/-- Not behind time: the bridge is done, its stream failed, or the deadline is yet to come. -/
def Near (now : Nat) (b : QBridge I A) : Prop := b.isTerminal = true ∨ b.stream.isFailed = true ∨ now < b.deadline

/-- The bridge and its stream have the same deadline. -/
def Aligned (b : QBridge I A) : Prop := b.stream.deadline = some b.deadline

/-- Sending leaves nothing behind time. -/
theorem pumpOut_near (hS : Q.Sound) (b : QBridge I A) (t : ConnTable Q.C Q.V A) (now : Nat) (ha : Aligned b)
    (hc : ∃ e, t.conns.get? b.ch = some e) : Near now (b.pumpOut Q T t now).1 := by
  have ht := pumpOut_timed (T := T) hS b t now
  by_cases hd : now < b.deadline
  · exact .inr (.inr (by rw [ht.deadline]; exact hd))
  have hd : b.deadline ≤ now := Nat.le_of_not_lt hd
  by_cases hterm : b.isTerminal = true
  · exact .inl (ht.terminal hterm)
  clear ht
  unfold pumpOut
  split
  · exact .inl (drop_terminal _ _)
  · next h0 =>
    rw [Bool.or_eq_true, not_or] at h0
    split
    · exact .inl (drop_terminal _ _)
    · split
      · exact .inl (drop_terminal _ _)
      · next h2 =>
        have hdone : b.stream.isDone = false := by
          cases hx : b.stream.isDone with
          | false => rfl
          | true => exact absurd ⟨hd, hx, by rw [Bool.eq_false_iff.2 hterm]; rfl⟩ h2
        have hg := gather_deadline (T := T) b now
        have hfail : (b.gather T now).stream.isFailed = true := by
          rw [hg.2]; exact Stream.pollTransmit_late ha hd (Bool.eq_false_iff.2 h0.2) hdone
        obtain ⟨e, he⟩ := hc
        unfold onConn ConnTable.on
        rw [he]
        dsimp only
        unfold QConn.via
        dsimp only
        unfold send
        dsimp only
        generalize writeLoop Q (b.gather T now).sid ((b.gather T now).pendingOut.length + 1) e.conn (b.gather T now).pendingOut = w
        generalize b.gather T now = g at hfail
        split
        · exact .inl (drop_terminal _ _)
        · exact .inr (.inl hfail)
        · split
          · exact .inl (drop_terminal _ _)
          · next hn => exact absurd hfail hn

/-- A claim about a bridge that no step spoils and that holds before the deadline. -/
structure Lasting (now : Nat) (P : QBridge I A → Prop) : Prop where
  mono : ∀ {b b'}, Timed b b' → P b → P b'
  fresh : ∀ {b}, now < b.deadline → P b

omit [DecidableEq I] [DecidableEq A] in
theorem near_lasting (now : Nat) : Lasting now (Near (I := I) (A := A) now) :=
  ⟨fun h hp => by
    rcases hp with hp | hp | hp
    · exact .inl (h.terminal hp)
    · exact .inr (.inl (h.stream.2 hp))
    · exact .inr (.inr (by rw [h.deadline]; exact hp)), fun h => .inr (.inr h)⟩

/-- The deadline is yet to come. -/
def Ahead (now : Nat) (b : QBridge I A) : Prop := now < b.deadline

omit [DecidableEq I] [DecidableEq A] in
theorem ahead_lasting (now : Nat) : Lasting now (Ahead (I := I) (A := A) now) :=
  ⟨fun h hp => by unfold Ahead; rw [h.deadline]; exact hp, fun h => h⟩

omit [DecidableEq I] [DecidableEq A] in
/-- Done, or the deadline is yet to come. -/
theorem apace_lasting (now : Nat) : Lasting now (fun b : QBridge I A => b.isTerminal = true ∨ now < b.deadline) :=
  ⟨fun h hp => hp.imp h.terminal (fun hp => by rw [h.deadline]; exact hp), fun h => .inr h⟩

variable {cfg : Cfg I A} {env : Env I A} {now : Nat} {P : QBridge I A → Prop}

theorem commitOne_lasting (hS : Q.Sound) (hP : Lasting now P) (cmp : CmpOptions) (e : Ep I A)
    (t : ConnTable Q.C Q.V A) (b : QBridge I A) (ev : PayloadEvent I A) (rest : List (PayloadEvent I A)) (h : P b) :
    P (commitOne cfg env T Q cmp now e t b ev rest).2.1 := by
  rw [commitOne_eq]
  have hp : Timed b (b.popped rest) := ⟨rfl, ⟨rfl, fun h => h⟩, fun h => h⟩
  split
  · exact hP.mono hp h
  · refine hP.mono (pumpOut_timed hS _ _ now) (hP.fresh ?_)
    show now < now + RESPONSE_NS
    have : 0 < RESPONSE_NS := by decide
    omega
  · exact hP.mono (hp.trans (drop_timed _ _)) h

theorem drainEvents_lasting (hS : Q.Sound) (hP : Lasting now P) (cmp : CmpOptions) : ∀ (fuel : Nat) (e : Ep I A)
    (t : ConnTable Q.C Q.V A) (b : QBridge I A) (log : List (Ep.Op I A)), P b →
    P (drainEvents cfg env T Q cmp now fuel e t b log).2.1 := by
  intro fuel
  induction fuel with
  | zero => intro e t b log h; exact h
  | succ n ih =>
    intro e t b log h
    simp only [drainEvents]
    split
    · exact h
    · exact ih _ _ _ _ (commitOne_lasting hS hP cmp e t b _ _ h)

theorem drainPayloadOnly_lasting (hS : Q.Sound) (hP : Lasting now P) (cmp : CmpOptions) (e : Ep I A)
    (t : ConnTable Q.C Q.V A) (b : QBridge I A) (h : P b) :
    P (drainPayloadOnly cfg env T Q cmp e t b now).2.1 := by
  unfold drainPayloadOnly
  split
  · exact drainEvents_lasting hS hP cmp _ e t b [] h
  · exact h

end QBridge
end Verif
