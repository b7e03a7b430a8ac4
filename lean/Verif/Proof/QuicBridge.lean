import Verif.Model.QuicBridge
import Verif.Proof.StreamChunk
import Verif.Proof.BridgeLife
import Verif.Proof.QuicConn
/-
What a bridge of the QUIC node can do: its steps, taken apart, and what they keep.
-/
namespace Verif
open Map

section
variable {I A : Type} [DecidableEq I] {CI : DataCodec I} {CA : DataCodec A}

namespace Stream

/-- Same exchange: the id and the peer. -/
def Kin (s s' : Stream I A) : Prop := s'.id = s.id ∧ s'.peer = s.peer

omit [DecidableEq I] in
theorem Kin.refl (s : Stream I A) : Kin s s := ⟨rfl, rfl⟩
omit [DecidableEq I] in
theorem Kin.trans {a b c : Stream I A} (h : Kin a b) (h2 : Kin b c) : Kin a c :=
  ⟨h2.1.trans h.1, h2.2.trans h.2⟩

theorem dispatch_kin {s s' : Stream I A} {m : Message I A} {now : Nat}
    (h : dispatch CI CA s m now = .ok s') : Kin s s' := by
  unfold dispatch at h
  split at h
  · split at h <;> cases h; exact ⟨rfl, rfl⟩
  · split at h
    · split at h <;> cases h; exact ⟨rfl, rfl⟩
    · cases h
  · cases h; exact ⟨rfl, rfl⟩
  · split at h
    · cases h; exact ⟨rfl, rfl⟩
    · split at h
      · cases h
      · split at h <;> cases h; exact ⟨rfl, rfl⟩
    · cases h; exact ⟨rfl, rfl⟩
    · cases h
  all_goals cases h

theorem handleData_kin (s : Stream I A) (d : Bytes) (now : Nat) : Kin s (s.handleData CI CA d now).1 := by
  unfold handleData
  split
  · exact .refl _
  · split
    · exact .refl _
    · exact ⟨rfl, rfl⟩
  · split
    · next s' h =>
      unfold handleDataInner at h
      split at h
      · cases h
      · split at h
        · split at h <;> first
            | cases h
            | (cases h; exact ⟨rfl, rfl⟩)
            | (split at h <;> cases h; exact ⟨rfl, rfl⟩)
          all_goals exact ⟨rfl, rfl⟩
        · split at h
          · cases h
          · unfold tryDecodeFrame at h
            split at h
            · cases h
            · cases h; exact ⟨rfl, rfl⟩
            · dsimp only at h
              split at h
              · cases h
              · split at h
                · cases h
                · split at h
                  · cases h
                  · next s1 h1 =>
                    split at h
                    · cases h
                    · cases h
                      have := dispatch_kin h1
                      exact ⟨this.1, this.2⟩
    · exact ⟨rfl, rfl⟩

omit [DecidableEq I] in
theorem pollTransmit_kin (s : Stream I A) (now : Nat) : Kin s (s.pollTransmit now).1 := by
  unfold pollTransmit
  split
  · exact .refl _
  · exact .refl _
  · split
    · exact ⟨rfl, rfl⟩
    · split
      · exact .refl _
      · dsimp only
        split <;> exact ⟨rfl, rfl⟩

omit [DecidableEq I] in
theorem handleTimeout_kin (s : Stream I A) (now : Nat) : Kin s (s.handleTimeout now) := by
  unfold handleTimeout
  split
  · split <;> exact ⟨rfl, rfl⟩
  · exact .refl _

end Stream

theorem drainUnits_kin {T : TEnv} (ring : Option Keyring) (max now : Nat) :
    ∀ (fuel : Nat) (s : Stream I A) (buf : Bytes),
      Stream.Kin s (Bridge.drainUnits CI CA T ring max now fuel s buf).1 := by
  intro fuel
  induction fuel with
  | zero => intro s buf; exact .refl s
  | succ n ih =>
    intro s buf
    simp only [Bridge.drainUnits]
    split
    · exact .refl s
    · exact .refl s
    · next plain used _ =>
      split
      · next s' _ h =>
        have := Stream.handleData_kin (CI := CI) (CA := CA) s plain now
        rw [h] at this; exact this
      · next s' h =>
        have := Stream.handleData_kin (CI := CI) (CA := CA) s plain now
        rw [h] at this; exact this.trans (ih _ _)
end

namespace QBridge
variable {I A : Type} [DecidableEq I]

/-- The bridge once an event was taken from its stream. -/
def popped (b : QBridge I A) (rest : List (PayloadEvent I A)) : QBridge I A :=
  { b with stream := { b.stream with endpointEvents := rest } }

/-- The bridge with a response to send. -/
def loaded (b : QBridge I A) (body : Bytes) (dl : Nat) : QBridge I A :=
  { b with stream := b.stream.loadResponse body dl, precompressed := true, deadline := dl }

/-- The bridge once an event was handed over: a request may have brought a response (`R`). -/
def Committed (R : Bytes → Prop) (b : QBridge I A) (ev : PayloadEvent I A) (rest : List (PayloadEvent I A))
    (b' : QBridge I A) : Prop :=
  b' = b.popped rest ∨ ev.isRequest = true ∧ ∃ body dl, R body ∧ b' = (b.popped rest).loaded body dl

/-- The steps of a bridge. -/
inductive BMove (CI : DataCodec I) (CA : DataCodec A) (T : TEnv) : QBridge I A → QBridge I A → Prop
  | flag (b : QBridge I A) (q : Bool) : BMove CI CA T b { b with queued := q }
  | chunk (b : QBridge I A) (bytes : Bytes) (now : Nat) (h : (b.takeChunk CI CA T bytes now).2 = false) :
      BMove CI CA T b (b.takeChunk CI CA T bytes now).1
  | refuse (b : QBridge I A) (bytes : Bytes) (now : Nat) (r : LinkFail) :
      BMove CI CA T b ((b.takeChunk CI CA T bytes now).1.drop r)
  | cut (b : QBridge I A) (now : Nat) (r : LinkFail) :
      BMove CI CA T b ({ b with stream := (b.stream.handleData CI CA [] now).1 }.drop r)
  | recvFin (b : QBridge I A) (now : Nat) (hs : b.stream.isFailed = false)
      (h : b.stream.handleData CI CA [] now = (b.stream, none)) (ha : b.accum = []) : BMove CI CA T b b.observeRecvFin
  | late (b : QBridge I A) (r : LinkFail) (hs : b.stream.isFailed = true) : BMove CI CA T b (b.observeRecvFin.drop r)
  | sendFin (b : QBridge I A) : BMove CI CA T b b.observeSendFin
  | drop (b : QBridge I A) (r : LinkFail) : BMove CI CA T b (b.drop r)
  | fail (b : QBridge I A) (r : LinkFail) : BMove CI CA T b (b.fail r)
  | gather (b : QBridge I A) (now : Nat) (hf : b.isFailed = false) (hs : b.stream.isFailed = false) :
      BMove CI CA T b (b.gather T now)
  | wrote (b : QBridge I A) (n : Nat) :
      BMove CI CA T b { b with pendingOut := b.pendingOut.drop n, put := b.put ++ b.pendingOut.take n }
  | finish (b : QBridge I A) (hf : b.isFailed = false) (hs : b.stream.isFailed = false) (hp : b.pendingOut = [])
      (hw : b.outboundWritten = true ∨ b.eager = false ∧ b.inboundValidated = false)
      (hd : b.sentAny = true ∨ b.stream.isDone = true) : BMove CI CA T b { b with finishCalled := true }
  | timeout (b : QBridge I A) (now : Nat) (r : LinkFail) :
      BMove CI CA T b ({ b with stream := b.stream.handleTimeout now }.drop r)

/-- A sequence of steps. -/
inductive BMoves (CI : DataCodec I) (CA : DataCodec A) (T : TEnv) : QBridge I A → QBridge I A → Prop
  | refl (b : QBridge I A) : BMoves CI CA T b b
  | snoc {a b c : QBridge I A} : BMoves CI CA T a b → BMove CI CA T b c → BMoves CI CA T a c

variable {CI : DataCodec I} {CA : DataCodec A} {T : TEnv}

theorem BMoves.one {a b : QBridge I A} (h : BMove CI CA T a b) : BMoves CI CA T a b := .snoc (.refl a) h

theorem BMoves.trans {a b c : QBridge I A} (h : BMoves CI CA T a b) (h2 : BMoves CI CA T b c) : BMoves CI CA T a c := by
  induction h2 with
  | refl => exact h
  | snoc _ hm ih => exact .snoc ih hm

/-- What never changes while a bridge lives. -/
structure Alike (b b' : QBridge I A) : Prop where
  ch : b'.ch = b.ch
  sid : b'.sid = b.sid
  slot : b'.slot = b.slot
  eager : b'.eager = b.eager
  label : b'.label = b.label
  skip : b'.skip = b.skip
  max : b'.max = b.max
  cmp : b'.cmp = b.cmp
  id : b'.stream.id = b.stream.id
  peer : b'.stream.peer = b.stream.peer

omit [DecidableEq I] in
theorem Alike.refl (b : QBridge I A) : Alike b b := ⟨rfl, rfl, rfl, rfl, rfl, rfl, rfl, rfl, rfl, rfl⟩
omit [DecidableEq I] in
theorem Alike.trans {a b c : QBridge I A} (h : Alike a b) (h2 : Alike b c) : Alike a c :=
  ⟨h2.ch.trans h.ch, h2.sid.trans h.sid, h2.slot.trans h.slot, h2.eager.trans h.eager, h2.label.trans h.label,
    h2.skip.trans h.skip, h2.max.trans h.max, h2.cmp.trans h.cmp, h2.id.trans h.id, h2.peer.trans h.peer⟩
omit [DecidableEq I] in
theorem Alike.stream {b : QBridge I A} {s : Stream I A} (h : Stream.Kin b.stream s) : Alike b { b with stream := s } :=
  ⟨rfl, rfl, rfl, rfl, rfl, rfl, rfl, rfl, h.1, h.2⟩

omit [DecidableEq I] in
theorem fail_alike (b : QBridge I A) (r : LinkFail) : Alike b (b.fail r) := by
  unfold fail
  split
  · exact .refl b
  · refine ⟨rfl, rfl, rfl, rfl, rfl, rfl, rfl, rfl, ?_, ?_⟩ <;> dsimp only <;> split <;> rfl

omit [DecidableEq I] in
theorem drop_alike (b : QBridge I A) (r : LinkFail) : Alike b (b.drop r) :=
  Alike.trans (b := { b with pendingOut := [] }) ⟨rfl, rfl, rfl, rfl, rfl, rfl, rfl, rfl, rfl, rfl⟩ (fail_alike _ r)

omit [DecidableEq I] in
theorem observeRecvFin_alike (b : QBridge I A) : Alike b b.observeRecvFin := by
  unfold observeRecvFin; split <;> exact ⟨rfl, rfl, rfl, rfl, rfl, rfl, rfl, rfl, rfl, rfl⟩

theorem takeUnits_alike (b : QBridge I A) (now : Nat) : Alike b (b.takeUnits CI CA T now).1 := by
  have h := drainUnits_kin (CI := CI) (CA := CA) (T := T) none b.max now (b.accum.length + 1) b.stream b.accum
  exact ⟨rfl, rfl, rfl, rfl, rfl, rfl, rfl, rfl, h.1, h.2⟩

theorem takeChunk_alike (b : QBridge I A) (bytes : Bytes) (now : Nat) :
    Alike b (b.takeChunk CI CA T bytes now).1 := by
  have hu : ∀ b' : QBridge I A, Alike b b' → Alike b (b'.takeUnits CI CA T now).1 :=
    fun b' h => h.trans (takeUnits_alike b' now)
  unfold takeChunk
  dsimp only
  split
  · exact hu _ ⟨rfl, rfl, rfl, rfl, rfl, rfl, rfl, rfl, rfl, rfl⟩
  · split
    · apply hu
      split <;> exact ⟨rfl, rfl, rfl, rfl, rfl, rfl, rfl, rfl, rfl, rfl⟩
    · exact ⟨rfl, rfl, rfl, rfl, rfl, rfl, rfl, rfl, rfl, rfl⟩
    · exact ⟨rfl, rfl, rfl, rfl, rfl, rfl, rfl, rfl, rfl, rfl⟩

omit [DecidableEq I] in
theorem putLabel_alike (b : QBridge I A) : Alike b b.putLabel := by
  unfold putLabel
  split
  · exact ⟨rfl, rfl, rfl, rfl, rfl, rfl, rfl, rfl, rfl, rfl⟩
  · exact .refl b

omit [DecidableEq I] in
theorem gather_alike (T : TEnv) (b : QBridge I A) (now : Nat) : Alike b (b.gather T now) := by
  have h := putLabel_alike b
  have hs := Stream.pollTransmit_kin b.putLabel.stream now
  have g : Alike b { b.putLabel with stream := (b.putLabel.stream.pollTransmit now).1 } := h.trans (Alike.stream hs)
  unfold gather
  dsimp only
  split
  · next s hx =>
    rw [hx] at g; exact g
  · next s c hx =>
    rw [hx] at g
    exact ⟨g.ch, g.sid, g.slot, g.eager, g.label, g.skip, g.max, g.cmp, g.id, g.peer⟩

theorem BMove.alike {b b' : QBridge I A} (h : BMove CI CA T b b') : Alike b b' := by
  cases h with
  | flag q => exact ⟨rfl, rfl, rfl, rfl, rfl, rfl, rfl, rfl, rfl, rfl⟩
  | chunk bytes now _ => exact takeChunk_alike b bytes now
  | refuse bytes now r => exact (takeChunk_alike b bytes now).trans (drop_alike _ r)
  | cut now r => exact (Alike.stream (Stream.handleData_kin _ _ _)).trans (drop_alike _ r)
  | recvFin now _ _ => exact observeRecvFin_alike b
  | late r _ => exact (observeRecvFin_alike b).trans (drop_alike _ r)
  | sendFin => unfold observeSendFin; split <;> exact ⟨rfl, rfl, rfl, rfl, rfl, rfl, rfl, rfl, rfl, rfl⟩
  | drop r => exact drop_alike b r
  | fail r => exact fail_alike b r
  | gather now => exact gather_alike T b now
  | wrote n => exact ⟨rfl, rfl, rfl, rfl, rfl, rfl, rfl, rfl, rfl, rfl⟩
  | finish => exact ⟨rfl, rfl, rfl, rfl, rfl, rfl, rfl, rfl, rfl, rfl⟩
  | timeout now r => exact (Alike.stream (Stream.handleTimeout_kin _ _)).trans (drop_alike _ r)

omit [DecidableEq I] in
theorem Committed.alike {R : Bytes → Prop} {b b' : QBridge I A} {ev : PayloadEvent I A} {rest : List (PayloadEvent I A)}
    (h : Committed R b ev rest b') : Alike b b' := by
  rcases h with rfl | ⟨_, _, _, _, rfl⟩ <;> exact ⟨rfl, rfl, rfl, rfl, rfl, rfl, rfl, rfl, rfl, rfl⟩

theorem BMoves.alike {b b' : QBridge I A} (h : BMoves CI CA T b b') : Alike b b' := by
  induction h with
  | refl => exact .refl _
  | snoc _ hm ih => exact ih.trans hm.alike

/-! ### A bridge that is done stays done -/

theorem takeChunk_phase (b : QBridge I A) (bytes : Bytes) (now : Nat) :
    (b.takeChunk CI CA T bytes now).1.phase = b.phase := by
  unfold takeChunk takeUnits
  dsimp only
  split
  · rfl
  · split
    · split <;> rfl
    · rfl
    · rfl

omit [DecidableEq I] in
theorem gather_phase (T : TEnv) (b : QBridge I A) (now : Nat) : (b.gather T now).phase = b.phase := by
  have h : b.putLabel.phase = b.phase := by unfold putLabel; split <;> rfl
  unfold gather
  dsimp only
  split <;> exact h

omit [DecidableEq I] in
theorem terminal_of_phase {b b' : QBridge I A} (h : b'.phase = b.phase) (ht : b.isTerminal = true) :
    b'.isTerminal = true := by
  unfold isTerminal at ht ⊢
  rw [h]; exact ht

omit [DecidableEq I] in
theorem fail_terminal (b : QBridge I A) (r : LinkFail) : (b.fail r).isTerminal = true := by
  unfold fail
  split
  · next h =>
    unfold isFailed at h
    unfold isTerminal
    split at h
    · next hp => rw [hp]
    · cases h
  · rfl

theorem BMove.terminal {b b' : QBridge I A} (h : BMove CI CA T b b') (ht : b.isTerminal = true) :
    b'.isTerminal = true := by
  cases h with
  | chunk bytes now _ => exact terminal_of_phase (takeChunk_phase b bytes now) ht
  | refuse bytes now r => exact fail_terminal _ r
  | cut now r => exact fail_terminal _ r
  | late r _ => exact fail_terminal _ r
  | timeout now r => exact fail_terminal _ r
  | recvFin now _ _ =>
    unfold isTerminal at ht
    unfold observeRecvFin
    split
    · next hp => rw [hp] at ht; cases ht
    · rfl
    · exact ht
  | sendFin =>
    unfold isTerminal at ht
    unfold observeSendFin
    split
    · next hp => rw [hp] at ht; cases ht
    · rfl
    · exact ht
  | drop r => exact fail_terminal _ r
  | fail r => exact fail_terminal b r
  | gather now => exact terminal_of_phase (gather_phase T b now) ht
  | _ => exact ht

theorem BMoves.terminal {b b' : QBridge I A} (h : BMoves CI CA T b b') (ht : b.isTerminal = true) :
    b'.isTerminal = true := by
  induction h with
  | refl => exact ht
  | snoc _ hm ih => exact hm.terminal ih

/-- The peer's data has ended, or the bridge is done: its events may be handed over. -/
def Ripe (b : QBridge I A) : Prop := b.isTerminal = true ∨ b.phase = .recvClosed

theorem BMove.ripe {b b' : QBridge I A} (h : BMove CI CA T b b') (hr : b.Ripe) : b'.Ripe := by
  rcases hr with hr | hr
  · exact .inl (h.terminal hr)
  · cases h with
    | chunk bytes now _ => exact .inr ((takeChunk_phase b bytes now).trans hr)
    | refuse bytes now r => exact .inl (fail_terminal _ r)
    | cut now r => exact .inl (fail_terminal _ r)
    | late r _ => exact .inl (fail_terminal _ r)
    | timeout now r => exact .inl (fail_terminal _ r)
    | recvFin now _ _ _ => right; unfold observeRecvFin; rw [hr]; exact hr
    | sendFin => left; unfold observeSendFin; rw [hr]; rfl
    | drop r => exact .inl (fail_terminal _ r)
    | fail r => exact .inl (fail_terminal b r)
    | gather now _ _ => exact .inr ((gather_phase T b now).trans hr)
    | _ => exact .inr hr

theorem BMoves.ripe {b b' : QBridge I A} (h : BMoves CI CA T b b') (hr : b.Ripe) : b'.Ripe := by
  induction h with
  | refl => exact hr
  | snoc _ hm ih => exact hm.ripe ih

/-! ### The connection below -/

section
variable {Q : Quinn A}

theorem writeLoop_spec (hS : Q.Sound) (sid : Nat) : ∀ (fuel : Nat) (c : Q.C) (rest : Bytes),
    Q.drained (writeLoop Q sid fuel c rest).1 = Q.drained c ∧
    ∃ n, (writeLoop Q sid fuel c rest).2.1 = rest.drop n := by
  intro fuel
  induction fuel with
  | zero => intro c rest; exact ⟨rfl, 0, rfl⟩
  | succ k ih =>
    intro c rest
    have hw := hS.write c sid rest
    simp only [writeLoop]
    split
    · next h => exact ⟨rfl, 0, by rw [h]; rfl⟩
    · split
      · next c' n hx =>
        rw [hx] at hw
        split
        · exact ⟨hw, 0, rfl⟩
        · obtain ⟨h1, m, h2⟩ := ih c' (rest.drop n)
          exact ⟨h1.trans hw, n + m, by rw [h2, List.drop_drop]⟩
      · next c' hx => rw [hx] at hw; exact ⟨hw, 0, rfl⟩
      · next c' hx => rw [hx] at hw; exact ⟨hw, 0, rfl⟩

omit [DecidableEq I] in
theorem gather_label (b : QBridge I A) (now : Nat) :
    (b.gather T now).outboundWritten = true ∨ (b.gather T now).eager = false ∧ (b.gather T now).inboundValidated = false := by
  have h : b.putLabel.outboundWritten = true ∨ b.putLabel.eager = false ∧ b.putLabel.inboundValidated = false := by
    unfold putLabel
    split
    · exact .inl rfl
    · next h =>
      revert h
      cases b.outboundWritten <;> cases b.eager <;> cases b.inboundValidated <;> simp
  unfold gather
  dsimp only
  split <;> exact h

theorem writeLoop_all (sid : Nat) : ∀ (fuel : Nat) (c : Q.C) (rest : Bytes),
    (writeLoop Q sid fuel c rest).2.2 = .all → (writeLoop Q sid fuel c rest).2.1 = [] := by
  intro fuel
  induction fuel with
  | zero => intro c rest h; cases h
  | succ k ih =>
    intro c rest
    simp only [writeLoop]
    split
    · exact fun _ => rfl
    · split
      · split
        · exact fun h => by cases h
        · exact ih _ _
      · exact fun h => by cases h
      · exact fun h => by cases h

theorem send_spec (hS : Q.Sound) (b : QBridge I A) (now : Nat) (c : Q.C) (hf : b.isFailed = false)
    (hs : b.stream.isFailed = false) :
    Q.drained (b.send Q T now c).1 = Q.drained c ∧ BMoves CI CA T b (b.send Q T now c).2 := by
  obtain ⟨h1, n, h2⟩ := writeLoop_spec hS (b.gather T now).sid ((b.gather T now).pendingOut.length + 1) c
    (b.gather T now).pendingOut
  have hall := writeLoop_all (Q := Q) (b.gather T now).sid ((b.gather T now).pendingOut.length + 1) c
    (b.gather T now).pendingOut
  have hlab := gather_label (T := T) b now
  have g0 : BMoves CI CA T b (b.gather T now) := .one (.gather b now hf hs)
  have hgf : (b.gather T now).isFailed = false := by unfold isFailed; rw [gather_phase]; exact hf
  unfold send
  dsimp only
  generalize b.gather T now = b1 at h1 h2 hall hlab g0 hgf ⊢
  generalize writeLoop Q b1.sid (b1.pendingOut.length + 1) c b1.pendingOut = w at h1 h2 hall ⊢
  have g : BMoves CI CA T b { b1 with
      pendingOut := w.2.1, put := b1.put ++ b1.pendingOut.take (b1.pendingOut.length - w.2.1.length) } := by
    have hn : w.2.1 = b1.pendingOut.drop (b1.pendingOut.length - w.2.1.length) := by
      rw [h2, List.length_drop]
      rcases Nat.le_total n b1.pendingOut.length with h | h
      · rw [Nat.sub_sub_self h]
      · rw [Nat.sub_eq_zero_of_le h, Nat.sub_zero, List.drop_length, List.drop_eq_nil_of_le h]
    have := g0.snoc (.wrote b1 (b1.pendingOut.length - w.2.1.length))
    rw [← hn] at this
    exact this
  split
  · exact ⟨(hS.abandon _ _).trans h1, g.snoc (.drop _ _)⟩
  · exact ⟨h1, g⟩
  · next hw =>
    have hnil := hall hw
    split
    · exact ⟨(hS.abandon _ _).trans h1, g.snoc (.drop _ _)⟩
    · next hsf =>
      split
      · next hc =>
        refine ⟨(hS.finish _ _).trans h1, g.snoc (.finish _ hgf (Bool.eq_false_iff.2 hsf) hnil hlab ?_)⟩
        revert hc
        simp only [Bool.and_eq_true, Bool.or_eq_true]
        exact fun h => h.2
      · exact ⟨h1, g⟩

/-- What a read loop leaves: refused bytes are the end of it. -/
def ReadOk (CI : DataCodec I) (CA : DataCodec A) (T : TEnv) (b : QBridge I A) (r : QBridge I A × ReadStop) : Prop :=
  BMoves CI CA T b r.1 ∨
  r.2 = .bad ∧ ∃ b0 bytes now, BMoves CI CA T b b0 ∧ r.1 = (b0.takeChunk CI CA T bytes now).1

theorem readLoop_spec (hS : Q.Sound) (now : Nat) : ∀ (fuel : Nat) (c : Q.C) (b : QBridge I A),
    Q.drained (readLoop CI CA T Q now fuel c b).1 = Q.drained c ∧
    ReadOk CI CA T b (readLoop CI CA T Q now fuel c b).2 := by
  intro fuel
  induction fuel with
  | zero => intro c b; exact ⟨rfl, .inl (.refl b)⟩
  | succ k ih =>
    intro c b
    have hr := hS.readNext c b.sid
    simp only [readLoop]
    split
    · next c' bytes hx =>
      rw [hx] at hr
      split
      · next b' hy => exact ⟨hr, .inr ⟨rfl, b, bytes, now, .refl b, by rw [hy]⟩⟩
      · next b' hy =>
        have hm := BMove.chunk (CI := CI) (CA := CA) (T := T) b bytes now (by rw [hy])
        rw [hy] at hm
        obtain ⟨h1, h2⟩ := ih c' b'
        refine ⟨h1.trans hr, ?_⟩
        rcases h2 with h2 | ⟨h2, b0, bs, n, h3, h4⟩
        · exact .inl ((BMoves.one hm).trans h2)
        · exact .inr ⟨h2, b0, bs, n, (BMoves.one hm).trans h3, h4⟩
    · next c' hx => rw [hx] at hr; exact ⟨hr, .inl (.refl b)⟩
    · next c' hx => rw [hx] at hr; exact ⟨hr, .inl (.refl b)⟩
    · next c' hx => rw [hx] at hr; exact ⟨hr, .inl (.refl b)⟩

/-- What `pump_in` leaves: the end of the peer's data may be noted on a bridge whose stream failed; the `pump_out` that
always follows fails the bridge. -/
def Recvd (CI : DataCodec I) (CA : DataCodec A) (T : TEnv) (b b' : QBridge I A) : Prop :=
  BMoves CI CA T b b' ∨ ∃ b0, BMoves CI CA T b b0 ∧ b0.stream.isFailed = true ∧ b' = b0.observeRecvFin

theorem receive_spec (hS : Q.Sound) (b : QBridge I A) (now : Nat) (c : Q.C) :
    Q.drained (b.receive CI CA T Q now c).1 = Q.drained c ∧ Recvd CI CA T b (b.receive CI CA T Q now c).2 := by
  have hr := hS.readStart c b.sid
  unfold receive
  split
  · next c' hx => rw [hx] at hr; exact ⟨hr, .inl (.refl b)⟩
  · next c' hx => rw [hx] at hr; exact ⟨(hS.abandon _ _).trans hr, .inl (.one (.drop _ _))⟩
  · next c' hx =>
    rw [hx] at hr
    obtain ⟨h1, h2⟩ := readLoop_spec (CI := CI) (CA := CA) (T := T) hS now Q.fuel c' b
    dsimp only
    have h3 := (hS.readEnd (readLoop CI CA T Q now Q.fuel c' b).1 b.sid).trans (h1.trans hr)
    generalize readLoop CI CA T Q now Q.fuel c' b = r at h1 h2 h3 ⊢
    obtain ⟨rc, rb, rs⟩ := r
    dsimp only at h1 h2 h3 ⊢
    have hok : rs ≠ .bad → BMoves CI CA T b rb := by
      intro hne
      rcases h2 with h2 | ⟨h2, _⟩
      · exact h2
      · exact absurd h2 hne
    cases rs with
    | pause => exact ⟨h3, .inl (hok (by simp))⟩
    | bad =>
      refine ⟨(hS.abandon _ _).trans h3, .inl ?_⟩
      show BMoves CI CA T b (rb.drop .decode)
      rcases h2 with h2 | ⟨_, b0, bytes, n, g1, g2⟩
      · exact h2.snoc (.drop _ _)
      · dsimp only at g2
        rw [g2]
        exact g1.snoc (.refuse _ _ _ _)
    | reset => exact ⟨(hS.abandon _ _).trans h3, .inl ((hok (by simp)).snoc (.drop _ _))⟩
    | fin =>
      have h2 := hok (by simp)
      unfold readDone
      dsimp only
      split
      · exact ⟨(hS.abandon _ _).trans h3, .inl (h2.snoc (.cut _ now _))⟩
      · next hc =>
        refine ⟨h3, ?_⟩
        have hnone : (rb.stream.handleData CI CA [] now).2 = none := by
          cases hx : (rb.stream.handleData CI CA [] now).2 with
          | none => rfl
          | some e => rw [hx] at hc; simp at hc
        have heq : rb.stream.handleData CI CA [] now = ((rb.stream.handleData CI CA [] now).1, none) := by
          rw [← hnone]
        have hsame := (eof_settled heq).1
        rw [hsame] at heq ⊢
        show Recvd CI CA T b rb.observeRecvFin
        cases hf : rb.stream.isFailed with
        | false =>
          refine .inl (h2.snoc (.recvFin _ now hf heq ?_))
          cases hacc : rb.accum with
          | nil => rfl
          | cons x l => rw [hacc] at hc; simp at hc
        | true => exact .inr ⟨rb, h2, hf, rfl⟩

end

/-- One entry of the table is rewritten; `D` says that it may have become drained. -/
def ConnStep (Q : Quinn A) (D : Prop) (ch : Nat) (t t' : ConnTable Q.C Q.V A) : Prop :=
  t' = t ∨ ∃ e e', t.conns.get? ch = some e ∧ t' = { t with conns := t.conns.insert ch e' } ∧
    e'.peer = e.peer ∧ e'.inbound = e.inbound ∧ e'.pendingIndexed = e.pendingIndexed ∧ e'.outbound = e.outbound ∧
    (e.established = true → e'.established = true) ∧ (D ∨ Q.drained e'.conn = Q.drained e.conn)

variable [DecidableEq A] {Q : Quinn A}

theorem via_step {R : Type} {D : Prop} (t : ConnTable Q.C Q.V A) (ch : Nat) (f : Q.C → Q.C × R)
    (hf : D ∨ ∀ c, Q.drained (f c).1 = Q.drained c) :
    ConnStep Q D ch t (t.on Q ch (fun e => e.via Q f)).1 := by
  unfold ConnTable.on
  cases he : t.conns.get? ch with
  | none => exact .inl rfl
  | some e =>
    right
    obtain ⟨v1, v2, v3, v4⟩ := via_fields (Q := Q) e f
    obtain ⟨t1, t2, t3, t4, t5, t6, t7, t8⟩ := touch_fields (Q := Q) e
    refine ⟨e, _, he, rfl, v1, v2, v3, t5, v4, ?_⟩
    rcases hf with h | h
    · exact .inl h
    · right
      show Q.drained (f (e.touch Q).conn).1 = _
      rw [h, t1]

theorem onConn_spec {D : Prop} {P : QBridge I A → Prop} (b : QBridge I A) (t : ConnTable Q.C Q.V A)
    (f : Q.C → Q.C × QBridge I A) (hb : P b) (hf : ∀ c, Q.drained (f c).1 = Q.drained c ∧ P (f c).2) :
    P (b.onConn Q t f).1 ∧ ConnStep Q D b.ch t (b.onConn Q t f).2 := by
  have h := via_step (D := D) t b.ch f (.inr (fun c => (hf c).1))
  unfold onConn
  revert h
  unfold ConnTable.on
  cases he : t.conns.get? b.ch with
  | none => intro _; exact ⟨hb, .inl rfl⟩
  | some e => intro h; exact ⟨(hf _).2, h⟩

theorem failWithRetire_spec (hS : Q.Sound) {D : Prop} (b : QBridge I A) (t : ConnTable Q.C Q.V A) (r : LinkFail) :
    BMoves CI CA T b (b.failWithRetire Q t r).1 ∧ ConnStep Q D b.ch t (b.failWithRetire Q t r).2 :=
  ⟨.one (.drop b r), (onConn_spec (P := fun _ => True) b t _ trivial (fun c => ⟨hS.abandon c b.sid, trivial⟩)).2⟩

theorem pumpOut_spec (hS : Q.Sound) {D : Prop} (b : QBridge I A) (t : ConnTable Q.C Q.V A) (now : Nat) :
    BMoves CI CA T b (b.pumpOut Q T t now).1 ∧ ConnStep Q D b.ch t (b.pumpOut Q T t now).2 := by
  unfold pumpOut
  split
  · exact failWithRetire_spec hS b t _
  · next h0 =>
    split
    · obtain ⟨_, h2⟩ := failWithRetire_spec (CI := CI) (CA := CA) (T := T) (D := D) hS
        { b with stream := b.stream.handleTimeout now } t .timeout
      exact ⟨.one (.timeout b now _), h2⟩
    · split
      · exact failWithRetire_spec hS b t _
      · refine onConn_spec b t _ (.refl b) (fun c => send_spec hS b now c ?_ ?_)
        · exact (Bool.or_eq_false_iff.1 (Bool.eq_false_iff.2 h0)).1
        · exact (Bool.or_eq_false_iff.1 (Bool.eq_false_iff.2 h0)).2

/-- `pump_in` and the `pump_out` that follows it. -/
theorem pump_spec (hS : Q.Sound) {D : Prop} (b : QBridge I A) (t : ConnTable Q.C Q.V A) (now : Nat) :
    ConnStep Q D b.ch t (b.pumpIn CI CA T Q t now).2 ∧
    BMoves CI CA T b ((b.pumpIn CI CA T Q t now).1.pumpOut Q T (b.pumpIn CI CA T Q t now).2 now).1 ∧
    ConnStep Q D b.ch (b.pumpIn CI CA T Q t now).2
      ((b.pumpIn CI CA T Q t now).1.pumpOut Q T (b.pumpIn CI CA T Q t now).2 now).2 := by
  obtain ⟨h1, h2⟩ := onConn_spec (D := D) (P := Recvd CI CA T b) b t _ (.inl (.refl b))
    (fun c => receive_spec (CI := CI) (CA := CA) (T := T) hS b now c)
  refine ⟨h2, ?_⟩
  change Recvd CI CA T b (b.pumpIn CI CA T Q t now).1 at h1
  generalize b.pumpIn CI CA T Q t now = w at h1
  obtain ⟨g1, g2⟩ := pumpOut_spec (CI := CI) (CA := CA) (T := T) (D := D) hS w.1 w.2 now
  rcases h1 with h1 | ⟨b0, h1, hf, he⟩
  · exact ⟨h1.trans g1, by rw [← h1.alike.ch]; exact g2⟩
  · refine ⟨?_, by rw [← (h1.alike.trans (observeRecvFin_alike b0)).ch, ← he]; exact g2⟩
    have hs : w.1.stream.isFailed = true := by
      rw [he]
      have : b0.observeRecvFin.stream = b0.stream := by unfold observeRecvFin; split <;> rfl
      rw [this]; exact hf
    have e : (w.1.pumpOut Q T w.2 now).1 = w.1.drop .transport := by
      unfold pumpOut
      rw [if_pos (by rw [hs, Bool.or_true])]
      rfl
    rw [e, he]
    exact h1.snoc (.late b0 _ hf)

/-! ### Events are never added by sending -/

def Fewer (b b' : QBridge I A) : Prop :=
  b'.stream.endpointEvents = b.stream.endpointEvents ∨ b'.stream.endpointEvents = []

omit [DecidableEq I] [DecidableEq A] in
theorem Fewer.trans {a b c : QBridge I A} (h : Fewer a b) (h2 : Fewer b c) : Fewer a c := by
  rcases h2 with h2 | h2
  · rcases h with h | h
    · exact .inl (h2.trans h)
    · exact .inr (h2.trans h)
  · exact .inr h2

omit [DecidableEq I] [DecidableEq A] in
theorem drop_fewer (b : QBridge I A) (r : LinkFail) : Fewer b (b.drop r) := by
  unfold QBridge.drop fail
  split
  · exact .inl rfl
  · dsimp only
    by_cases h : b.phase = .recvClosed ∨ b.phase = .bothClosed
    · left; dsimp only; rw [if_pos h]
    · right; dsimp only; rw [if_neg h]; rfl

omit [DecidableEq I] [DecidableEq A] in
theorem timeout_fewer (b : QBridge I A) (now : Nat) : Fewer b { b with stream := b.stream.handleTimeout now } := by
  show _ ∨ _
  dsimp only
  unfold Stream.handleTimeout
  split
  · split
    · exact .inl rfl
    · exact .inl rfl
    · exact .inr rfl
  · exact .inl rfl

omit [DecidableEq A] in
theorem gather_fewer (T : TEnv) (b : QBridge I A) (now : Nat) : Fewer b (b.gather T now) := by
  have hs : b.putLabel.stream = b.stream := by unfold putLabel; split <;> rfl
  have := Bridge.poll_length b.stream now
  unfold gather
  dsimp only
  rw [hs]
  split
  · next s hx => rw [hx] at this; exact this
  · next s c hx => rw [hx] at this; exact this

omit [DecidableEq A] in
theorem send_fewer (b : QBridge I A) (now : Nat) (c : Q.C) : Fewer b (b.send Q T now c).2 := by
  have h := gather_fewer T b now
  unfold send
  dsimp only
  generalize writeLoop Q (b.gather T now).sid ((b.gather T now).pendingOut.length + 1) c (b.gather T now).pendingOut = w
  have h1 : Fewer b { b.gather T now with pendingOut := w.2.1 } := h
  split
  · exact h1.trans (drop_fewer _ _)
  · exact h1
  · split
    · exact h1.trans (drop_fewer _ _)
    · split <;> exact h1

theorem pumpOut_fewer (b : QBridge I A) (t : ConnTable Q.C Q.V A) (now : Nat) : Fewer b (b.pumpOut Q T t now).1 := by
  unfold pumpOut
  split
  · exact drop_fewer _ _
  · split
    · exact (timeout_fewer b now).trans (drop_fewer _ _)
    · split
      · exact drop_fewer _ _
      · unfold onConn ConnTable.on
        cases t.conns.get? b.ch with
        | none => exact .inl rfl
        | some e => exact send_fewer b now _

theorem commitOne_eq {cfg : Cfg I A} {env : Env I A} (cmp : CmpOptions) (now : Nat) (e : Ep I A)
    (t : ConnTable Q.C Q.V A) (b : QBridge I A) (ev : PayloadEvent I A) (rest : List (PayloadEvent I A)) :
    commitOne cfg env T Q cmp now e t b ev rest =
      match e.handleStreamEvent cfg env (.payload ev) now with
      | (e, none) => (e, b.popped rest, t)
      | (e, some (.sendResponse p)) =>
        (e, ((b.popped rest).loaded (compressPayload T.B cmp (Ep.encodeBytes env (.pushPull p)))
          (now + RESPONSE_NS)).pumpOut Q T t now)
      | (e, some .close) => (e, (b.popped rest).failWithRetire Q t .admissionClosed) := rfl

end QBridge
end Verif
