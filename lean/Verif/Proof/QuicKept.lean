import Verif.Model.Quic
import Verif.Proof.QuicBridge
/-
What the work on a bridge leaves alone: its connection, its place in the queue, and every other connection.
-/
namespace Verif.QBridge
open Verif Map
variable {I A : Type}

/-- The bridge runs over the same stream and is queued as before. -/
def Steady (b b' : QBridge I A) : Prop :=
  b'.queued = b.queued ∧ b'.ch = b.ch ∧ b'.sid = b.sid ∧ b'.eager = b.eager

theorem Steady.refl (b : QBridge I A) : Steady b b := ⟨rfl, rfl, rfl, rfl⟩
theorem Steady.trans {a b c : QBridge I A} (h : Steady a b) (h2 : Steady b c) : Steady a c :=
  ⟨h2.1.trans h.1, h2.2.1.trans h.2.1, h2.2.2.1.trans h.2.2.1, h2.2.2.2.trans h.2.2.2⟩

theorem fail_steady (b : QBridge I A) (r : LinkFail) : Steady b (b.fail r) := by
  unfold fail; split <;> exact ⟨rfl, rfl, rfl, rfl⟩
theorem drop_steady (b : QBridge I A) (r : LinkFail) : Steady b (b.drop r) :=
  Steady.trans (b := { b with pendingOut := [] }) ⟨rfl, rfl, rfl, rfl⟩ (fail_steady _ _)
theorem sendFin_steady (b : QBridge I A) : Steady b b.observeSendFin := by
  unfold observeSendFin; split <;> exact ⟨rfl, rfl, rfl, rfl⟩
theorem recvFin_steady (b : QBridge I A) : Steady b b.observeRecvFin := by
  unfold observeRecvFin; split <;> exact ⟨rfl, rfl, rfl, rfl⟩
theorem putLabel_steady (b : QBridge I A) : Steady b b.putLabel := by
  unfold putLabel; split <;> exact ⟨rfl, rfl, rfl, rfl⟩
theorem gather_steady (T : TEnv) (b : QBridge I A) (now : Nat) : Steady b (b.gather T now) := by
  have h := putLabel_steady b
  unfold gather
  dsimp only
  split <;> exact h

section
variable {Q : Quinn A} {T : TEnv}
theorem send_steady (b : QBridge I A) (now : Nat) (c : Q.C) : Steady b (b.send Q T now c).2 := by
  have h := gather_steady T b now
  unfold send
  dsimp only
  generalize writeLoop Q (b.gather T now).sid ((b.gather T now).pendingOut.length + 1) c (b.gather T now).pendingOut = w
  generalize b.gather T now = g at h
  split
  · exact Steady.trans (b := { g with pendingOut := w.2.1, put := g.put ++ g.pendingOut.take (g.pendingOut.length - w.2.1.length) }) h (drop_steady _ _)
  · exact h
  · split
    · exact Steady.trans (b := { g with pendingOut := w.2.1, put := g.put ++ g.pendingOut.take (g.pendingOut.length - w.2.1.length) }) h (drop_steady _ _)
    · split <;> exact h

variable [DecidableEq I] {CI : DataCodec I} {CA : DataCodec A}

theorem takeUnits_steady (b : QBridge I A) (now : Nat) : Steady b (b.takeUnits CI CA T now).1 := ⟨rfl, rfl, rfl, rfl⟩

theorem takeChunk_steady (b : QBridge I A) (bytes : Bytes) (now : Nat) : Steady b (b.takeChunk CI CA T bytes now).1 := by
  unfold takeChunk
  dsimp only
  split
  · exact ⟨rfl, rfl, rfl, rfl⟩
  · split
    · split <;> exact ⟨rfl, rfl, rfl, rfl⟩
    · exact ⟨rfl, rfl, rfl, rfl⟩
    · exact ⟨rfl, rfl, rfl, rfl⟩

theorem readLoop_steady (now : Nat) : ∀ (fuel : Nat) (c : Q.C) (b : QBridge I A),
    Steady b (readLoop CI CA T Q now fuel c b).2.1 := by
  intro fuel
  induction fuel with
  | zero => intro c b; exact .refl b
  | succ k ih =>
    intro c b
    simp only [readLoop]
    split
    · next bytes _ =>
      have h := takeChunk_steady (CI := CI) (CA := CA) (T := T) b bytes now
      split
      · next hx => rw [hx] at h; exact h
      · next hx => rw [hx] at h; exact h.trans (ih _ _)
    · exact .refl b
    · exact .refl b
    · exact .refl b

theorem readDone_steady (now : Nat) (c : Q.C) (b : QBridge I A) (r : ReadStop) :
    Steady b (readDone CI CA Q now c b r).2 := by
  cases r with
  | pause => exact .refl b
  | bad => exact drop_steady _ _
  | reset => exact drop_steady _ _
  | fin =>
    simp only [readDone]
    split
    · exact Steady.trans (b := { b with stream := (b.stream.handleData CI CA [] now).1 }) ⟨rfl, rfl, rfl, rfl⟩ (drop_steady _ _)
    · exact Steady.trans (b := { b with stream := (b.stream.handleData CI CA [] now).1 }) ⟨rfl, rfl, rfl, rfl⟩ (recvFin_steady _)

theorem receive_steady (b : QBridge I A) (now : Nat) (c : Q.C) : Steady b (b.receive CI CA T Q now c).2 := by
  unfold receive
  split
  · exact .refl b
  · exact drop_steady _ _
  · exact (readLoop_steady _ _ _ _).trans (readDone_steady _ _ _ _)
end

/-- At most the entry `ch` of the table is rewritten, and it stays there. -/
def Only {A : Type} {Q : Quinn A} (ch : Nat) (t t' : ConnTable Q.C Q.V A) : Prop :=
  (∀ c, c ≠ ch → t'.conns.get? c = t.conns.get? c) ∧ (t'.conns.get? ch = none ↔ t.conns.get? ch = none)

section
variable {Q : Quinn A}
theorem Only.refl (ch : Nat) (t : ConnTable Q.C Q.V A) : Only ch t t := ⟨fun _ _ => rfl, Iff.rfl⟩
theorem Only.trans {ch : Nat} {t t1 t2 : ConnTable Q.C Q.V A} (h : Only ch t t1) (h2 : Only ch t1 t2) : Only ch t t2 :=
  ⟨fun c hc => (h2.1 c hc).trans (h.1 c hc), h2.2.trans h.2⟩

theorem Only.insert {ch : Nat} {t : ConnTable Q.C Q.V A} {e e' : QConn Q.C Q.V A} (he : t.conns.get? ch = some e) :
    Only ch t { t with conns := t.conns.insert ch e' } := by
  refine ⟨fun c hc => ?_, ?_⟩
  · show (t.conns.insert ch e').get? c = _
    rw [get?_insert, if_neg (Ne.symm hc)]
  · show (t.conns.insert ch e').get? ch = none ↔ _
    rw [get?_insert, if_pos rfl, he]; simp

variable [DecidableEq A]

theorem on_only {R : Type} (t : ConnTable Q.C Q.V A) (ch : Nat) (f : QConn Q.C Q.V A → QConn Q.C Q.V A × R) :
    Only ch t (t.on Q ch f).1 := by
  unfold ConnTable.on
  split
  · exact .refl _ _
  · next e he => exact .insert he

theorem onConn_steady (b : QBridge I A) (t : ConnTable Q.C Q.V A) (f : Q.C → Q.C × QBridge I A)
    (hf : ∀ c, Steady b (f c).2) : Steady b (b.onConn Q t f).1 ∧ Only b.ch t (b.onConn Q t f).2 := by
  have h := on_only t b.ch (fun e => e.via Q f)
  unfold onConn
  revert h
  unfold ConnTable.on
  cases he : t.conns.get? b.ch with
  | none => intro h; exact ⟨.refl b, h⟩
  | some e => intro h; exact ⟨hf _, h⟩

theorem failWithRetire_steady (b : QBridge I A) (t : ConnTable Q.C Q.V A) (r : LinkFail) :
    Steady b (b.failWithRetire Q t r).1 ∧ Only b.ch t (b.failWithRetire Q t r).2 :=
  ⟨drop_steady _ _, (onConn_steady b t _ (fun _ => .refl b)).2⟩

variable {T : TEnv}
theorem pumpOut_steady (b : QBridge I A) (t : ConnTable Q.C Q.V A) (now : Nat) :
    Steady b (b.pumpOut Q T t now).1 ∧ Only b.ch t (b.pumpOut Q T t now).2 := by
  unfold pumpOut
  split
  · exact failWithRetire_steady b t _
  · split
    · exact failWithRetire_steady { b with stream := b.stream.handleTimeout now } t _
    · split
      · exact failWithRetire_steady b t _
      · exact onConn_steady b t _ (fun c => send_steady b now c)

variable [DecidableEq I]
theorem pumpIn_steady {CI : DataCodec I} {CA : DataCodec A} (b : QBridge I A) (t : ConnTable Q.C Q.V A) (now : Nat) :
    Steady b (b.pumpIn CI CA T Q t now).1 ∧ Only b.ch t (b.pumpIn CI CA T Q t now).2 :=
  onConn_steady b t _ (fun c => receive_steady b now c)

theorem pump_steady {CI : DataCodec I} {CA : DataCodec A} (b : QBridge I A) (t : ConnTable Q.C Q.V A) (now : Nat) :
    Steady b ((b.pumpIn CI CA T Q t now).1.pumpOut Q T (b.pumpIn CI CA T Q t now).2 now).1 ∧
    Only b.ch t ((b.pumpIn CI CA T Q t now).1.pumpOut Q T (b.pumpIn CI CA T Q t now).2 now).2 := by
  have h := pumpIn_steady (CI := CI) (CA := CA) (T := T) b t now
  have h2 := pumpOut_steady (T := T) (b.pumpIn CI CA T Q t now).1 (b.pumpIn CI CA T Q t now).2 now
  rw [h.1.2.1] at h2
  exact ⟨h.1.trans h2.1, h.2.trans h2.2⟩

variable {cfg : Cfg I A} {env : Env I A}
theorem commitOne_steady (cmp : CmpOptions) (now : Nat) (e : Ep I A) (t : ConnTable Q.C Q.V A) (b : QBridge I A)
    (ev : PayloadEvent I A) (rest : List (PayloadEvent I A)) :
    Steady b (commitOne cfg env T Q cmp now e t b ev rest).2.1 ∧
    Only b.ch t (commitOne cfg env T Q cmp now e t b ev rest).2.2 := by
  unfold commitOne
  dsimp only
  split
  · exact ⟨⟨rfl, rfl, rfl, rfl⟩, .refl _ _⟩
  · have := pumpOut_steady (Q := Q) (T := T) { b with
      stream := ({ b.stream with endpointEvents := rest } : Stream I A).loadResponse (compressPayload T.B cmp (Ep.encodeBytes env (.pushPull (by assumption)))) (now + RESPONSE_NS)
      precompressed := true, deadline := now + RESPONSE_NS } t now
    exact this
  · exact failWithRetire_steady { b with stream := { b.stream with endpointEvents := rest } } t _

theorem drainEvents_steady (cmp : CmpOptions) (now : Nat) : ∀ (fuel : Nat) (e : Ep I A) (t : ConnTable Q.C Q.V A)
    (b : QBridge I A) (log : List (Ep.Op I A)),
    Steady b (drainEvents cfg env T Q cmp now fuel e t b log).2.1 ∧
    Only b.ch t (drainEvents cfg env T Q cmp now fuel e t b log).2.2.1 := by
  intro fuel
  induction fuel with
  | zero => intro e t b log; exact ⟨.refl b, .refl _ _⟩
  | succ k ih =>
    intro e t b log
    simp only [drainEvents]
    split
    · exact ⟨.refl b, .refl _ _⟩
    · next ev rest _ =>
      have h := commitOne_steady (cfg := cfg) (env := env) (T := T) cmp now e t b ev rest
      have h2 := ih (commitOne cfg env T Q cmp now e t b ev rest).1 (commitOne cfg env T Q cmp now e t b ev rest).2.2
        (commitOne cfg env T Q cmp now e t b ev rest).2.1 (log ++ [.streamEvent (.payload ev) now])
      rw [h.1.2.1] at h2
      exact ⟨h.1.trans h2.1, h.2.trans h2.2⟩

theorem drainThenReap_steady (cmp : CmpOptions) (e : Ep I A) (t : ConnTable Q.C Q.V A) (b : QBridge I A) (now : Nat) :
    Steady b (drainThenReap cfg env T Q cmp e t b now).2.1 ∧
    Only b.ch t (drainThenReap cfg env T Q cmp e t b now).2.2.1 := drainEvents_steady cmp now _ e t b []

theorem drainPayloadOnly_steady (cmp : CmpOptions) (e : Ep I A) (t : ConnTable Q.C Q.V A) (b : QBridge I A) (now : Nat) :
    Steady b (drainPayloadOnly cfg env T Q cmp e t b now).2.1 ∧
    Only b.ch t (drainPayloadOnly cfg env T Q cmp e t b now).2.2.1 := by
  unfold drainPayloadOnly
  split
  · exact drainEvents_steady cmp now _ e t b []
  · exact ⟨.refl b, .refl _ _⟩
end
end Verif.QBridge
