import Verif.Proof.BridgeEvs
/-
What stays the same of a bridge over its life.
-/
namespace Verif
namespace Bridge
variable {I A : Type} {cfg : Cfg I A} {env : Env I A} {T : TEnv}

/-- `b'` is a later state of `b`. -/
structure Kin (b b' : Bridge I A) : Prop where
  xid : b'.xid = b.xid
  max : b'.max = b.max
  ring : b'.ring = b.ring
  nos : b'.stream = none ↔ b.stream = none
  hand : b'.phase = .handshaking → b.phase = .handshaking
  failed : b.isFailed = true → b'.isFailed = true
  lab : b.records.isHandshaking = false → b'.records.isHandshaking = false
  idle : b.stream = none → b'.phase = b.phase ∨ b'.isFailed = true
  fin : b.finSent = true → b'.finSent = true

theorem Kin.refl (b : Bridge I A) : Kin b b :=
  ⟨rfl, rfl, rfl, Iff.rfl, id, id, id, fun _ => .inl rfl, id⟩

theorem Kin.trans {a b c : Bridge I A} (h : Kin a b) (g : Kin b c) : Kin a c where
  xid := g.xid.trans h.xid
  max := g.max.trans h.max
  ring := g.ring.trans h.ring
  nos := g.nos.trans h.nos
  hand := fun x => h.hand (g.hand x)
  failed := fun x => g.failed (h.failed x)
  lab := fun x => g.lab (h.lab x)
  idle := fun x => by
    rcases g.idle (h.nos.2 x) with h1 | h1
    · rcases h.idle x with h2 | h2
      · exact .inl (h1.trans h2)
      · exact .inr (g.failed h2)
    · exact .inr h1
  fin := fun x => g.fin (h.fin x)

theorem isFailed_congr {b b' : Bridge I A} (h : b'.phase = b.phase) : b'.isFailed = b.isFailed := by
  unfold isFailed; rw [h]

theorem isTerminal_congr {b b' : Bridge I A} (h : b'.phase = b.phase) : b'.isTerminal = b.isTerminal := by
  unfold isTerminal; rw [h]

/-- A change of the stream and of the buffers keeps the bridge's shape. -/
theorem Kin.set {b b' : Bridge I A} (hx : b'.xid = b.xid) (hm : b'.max = b.max) (hr : b'.ring = b.ring)
    (hs : b'.stream = none ↔ b.stream = none) (hp : b'.phase = b.phase)
    (hl : b.records.isHandshaking = false → b'.records.isHandshaking = false)
    (hf : b.finSent = true → b'.finSent = true) : Kin b b' where
  xid := hx
  max := hm
  ring := hr
  nos := hs
  hand := fun h => by rw [← hp]; exact h
  failed := fun h => by rw [isFailed_congr hp]; exact h
  lab := hl
  idle := fun _ => .inl hp
  fin := hf

theorem Kin.fail (b : Bridge I A) (r : LinkFail) : Kin b (b.fail r) := by
  by_cases h : b.isFailed = true
  · have : b.fail r = b := by simp [Bridge.fail, h]
    rw [this]; exact .refl b
  · refine ⟨?_, ?_, ?_, ?_, ?_, fun h' => absurd h' h, ?_, fun _ => .inr (fail_failed b r), ?_⟩ <;>
      simp only [Bridge.fail, h, Bool.false_eq_true, if_false]
    · split <;> simp
    · intro h; cases h
    · intro h; exact h
    · exact id

theorem Kin.retire (b : Bridge I A) : Kin b b.retire :=
  Kin.set rfl rfl rfl Iff.rfl rfl id (fun _ => rfl)

theorem Kin.failWithRetire (b : Bridge I A) (r : LinkFail) : Kin b (b.failWithRetire r) :=
  (Kin.retire b).trans (Kin.fail _ r)

theorem observeSendFin_phase (b : Bridge I A) :
    (b.phase = .active ∧ b.observeSendFin = { b with phase := .sendClosed }) ∨
    (b.phase = .recvClosed ∧ b.observeSendFin = { b with phase := .bothClosed }) ∨
    (b.phase ≠ .active ∧ b.phase ≠ .recvClosed ∧ b.observeSendFin = b) := by
  unfold observeSendFin
  cases h : b.phase <;> simp

theorem observeRecvFin_phase (b : Bridge I A) :
    (b.phase = .active ∧ b.observeRecvFin = { b with phase := .recvClosed }) ∨
    (b.phase = .sendClosed ∧ b.observeRecvFin = { b with phase := .bothClosed }) ∨
    (b.phase ≠ .active ∧ b.phase ≠ .sendClosed ∧ b.observeRecvFin = b) := by
  unfold observeRecvFin
  cases h : b.phase <;> simp

theorem Kin.phase (b : Bridge I A) (p : Link) (hs : b.stream ≠ none) (hp : p ≠ .handshaking)
    (hf : b.isFailed = false) : Kin b { b with phase := p } where
  xid := rfl
  max := rfl
  ring := rfl
  nos := Iff.rfl
  hand := fun h => absurd h hp
  failed := fun h => by rw [hf] at h; cases h
  lab := id
  idle := fun h => absurd h hs
  fin := id

theorem Kin.observeSendFin (b : Bridge I A) (hs : b.stream ≠ none) : Kin b b.observeSendFin := by
  rcases observeSendFin_phase b with ⟨h, e⟩ | ⟨h, e⟩ | ⟨_, _, e⟩ <;> rw [e]
  · exact Kin.phase b _ hs (by simp) (by simp [isFailed, h])
  · exact Kin.phase b _ hs (by simp) (by simp [isFailed, h])
  · exact .refl b

theorem Kin.observeRecvFin (b : Bridge I A) (hs : b.stream ≠ none) : Kin b b.observeRecvFin := by
  rcases observeRecvFin_phase b with ⟨h, e⟩ | ⟨h, e⟩ | ⟨_, _, e⟩ <;> rw [e]
  · exact Kin.phase b _ hs (by simp) (by simp [isFailed, h])
  · exact Kin.phase b _ hs (by simp) (by simp [isFailed, h])
  · exact .refl b

theorem Kin.closeSend {b : Bridge I A} {s : Stream I A} {b' : Bridge I A} (hs : b.stream ≠ none)
    (h : CloseSend b s b') : Kin b b' := by
  cases h with
  | failed => exact Kin.failWithRetire b _
  | open_ => exact .refl b
  | closed =>
    exact (Kin.set (b := b) (b' := { b with finSent := true }) rfl rfl rfl Iff.rfl rfl id (fun _ => rfl)).trans
      (Kin.observeSendFin _ hs)

theorem Kin.pumpOut {b b' : Bridge I A} {now : Nat} (h : PumpOut T b now b') : Kin b b' := by
  cases h with
  | idle => exact .refl _
  | expired => exact Kin.fail b _
  | failed => exact Kin.failWithRetire b _
  | late => exact Kin.failWithRetire b _
  | quiet s s' _ hs _ _ _ _ hc =>
    exact (Kin.set (b := b) (b' := { b with stream := some s' }) rfl rfl rfl (by simp [hs]) rfl id id).trans
      (Kin.closeSend (by simp) hc)
  | broken s s' chunks e hs =>
    exact (Kin.set (b := b) (b' := { b with stream := some s', sentAny := true }) rfl rfl rfl (by simp [hs])
      rfl id id).trans (Kin.failWithRetire _ _)
  | sent s s' chunks u _ hs _ _ _ _ _ hc =>
    exact (Kin.set (b := b) (b' := { b with stream := some s', sentAny := true, records := b.records.write u, sealed := b.sealed + 1 })
      rfl rfl rfl (by simp [hs]) rfl id id).trans (Kin.closeSend (by simp) hc)

theorem recv_isHandshaking (l : Labeled) (input : Bytes) (h : l.isHandshaking = false) :
    (l.recv input).1.isHandshaking = false := by
  have hq : ∀ g : LabelGate, g.queuePrefix.label = g.label ∧ g.queuePrefix.role = g.role ∧
      g.queuePrefix.validated = g.validated := by
    intro g; unfold LabelGate.queuePrefix; split <;> simp
  have hfl : ∀ l : Labeled, l.flushLabel.isHandshaking = l.isHandshaking := by
    intro l
    by_cases hp : l.prefixEmitted = true
    · simp [Labeled.flushLabel, hp]
    · by_cases hz : l.gate.outboundPrefix.length = 0
      · simp [Labeled.flushLabel, hp, LabelGate.takePrefix, hz, Labeled.isHandshaking, LabelGate.isValidating]
      · simp [Labeled.flushLabel, hp, LabelGate.takePrefix, hz, Labeled.isHandshaking, LabelGate.isValidating]
  unfold Labeled.recv
  simp only []
  split
  · unfold Labeled.consumeLabel
    simp only []
    split
    · exact h
    · have hg : (l.gate.consumeInbound (l.inbound ++ input)).1.isValidating = false := by
        unfold Labeled.isHandshaking LabelGate.isValidating at h
        unfold LabelGate.consumeInbound
        split
        · simp only [LabelGate.isValidating, hq]; simp
        · simp only []
          split
          · simp only [LabelGate.isValidating, hq]; simp
          · exact h
          · exact h
      split
      · next g t heq => rw [heq] at hg; rw [hfl]; exact hg
      · next g heq => rw [heq] at hg; exact hg
      · next g heq => rw [heq] at hg; exact hg
  · exact h

section
variable [DecidableEq I] {CI : DataCodec I} {CA : DataCodec A}

theorem Kin.pumpIn {b b' : Bridge I A} {s : Stream I A} {input : Bytes} {eof : Bool} {now : Nat}
    (hs : b.stream ≠ none) (h : PumpIn CI CA T b s input eof now b') : Kin b b' := by
  have hrec := recv_isHandshaking b.records input
  have hset : ∀ (s' : Stream I A) (left : Bytes), Kin b
      { b with records := (b.records.recv input).1.read.1, stream := some s', accum := left } := fun s' left =>
    Kin.set rfl rfl rfl (by simp [hs]) rfl (fun h => hrec h) id
  cases h with
  | rejected =>
    exact (Kin.set (b := b) (b' := { b with records := (b.records.recv input).1 }) rfl rfl rfl Iff.rfl rfl
      (fun h => hrec h) id).trans (Kin.failWithRetire _ _)
  | bad s' left => exact (hset s' left).trans (Kin.failWithRetire _ _)
  | more s' left => exact hset s' left
  | cut s' left => exact (hset s' left).trans (Kin.failWithRetire _ _)
  | refused s' s'' => exact (hset s'' []).trans (Kin.failWithRetire _ _)
  | ended s' s'' => exact (hset s'' []).trans (Kin.observeRecvFin _ (by simp))

theorem Kin.pumpIn' (b : Bridge I A) (s : Stream I A) (input : Bytes) (eof : Bool) (now : Nat)
    (hs : b.stream ≠ none) : Kin b (b.pumpIn CI CA T s input eof now) := by
  cases ht : b.isTerminal with
  | true =>
    have : b.pumpIn CI CA T s input eof now = b := by simp [Bridge.pumpIn, ht]
    rw [this]; exact .refl b
  | false => exact Kin.pumpIn hs (pumpIn_cases CI CA T b s input eof now ht)

theorem Kin.intake (b : Bridge I A) (data : Bytes) : Kin b (b.intakeHandshaking data) := by
  have h1 : Kin b { b with records := (b.records.recv data).1 } :=
    Kin.set rfl rfl rfl Iff.rfl rfl (fun h => recv_isHandshaking _ _ h) id
  unfold intakeHandshaking
  simp only []
  split
  · exact h1.trans (Kin.fail _ _)
  · exact h1

theorem Kin.feed (b : Bridge I A) (data : Bytes) (now : Nat) : Kin b (b.feed CI CA T data now) := by
  unfold Bridge.feed
  split
  · exact .refl b
  · split
    · split
      · split
        · exact Kin.fail b _
        · exact (Kin.set (b := b) (b' := { b with pendingEof := true }) rfl rfl rfl Iff.rfl rfl id id).trans (Kin.intake _ _)
      · exact Kin.intake _ _
    · next hs => exact Kin.pumpIn' _ _ _ _ _ (by simp [hs])

theorem Kin.replay (b : Bridge I A) (now : Nat) : Kin b (b.replay CI CA T now) := by
  unfold Bridge.replay
  split
  · exact .refl b
  · next hs =>
    split
    · exact .refl b
    · exact Kin.pumpIn' _ _ _ _ _ (by simp [hs])

variable [DecidableEq A]

theorem Kin.commitOne {b : Bridge I A} {e : Ep I A} {s : Stream I A} {ev : PayloadEvent I A}
    {rest : List (PayloadEvent I A)} {cmp : CmpOptions} {now : Nat} {r : Ep I A × Bridge I A}
    (hs : b.stream = some s) (h : CommitOne cfg env T cmp now e b s ev rest r) : Kin b r.2 := by
  have hset : ∀ s', Kin b { b with stream := some s' } := fun s' =>
    Kin.set rfl rfl rfl (by simp [hs]) rfl id id
  cases h with
  | quiet => exact hset _
  | respond e' p b' _ hp =>
    refine Kin.trans ?_ (Kin.pumpOut hp)
    exact Kin.set rfl rfl rfl (by simp [hs]) rfl id id
  | close => exact (hset _).trans (Kin.failWithRetire _ _)

theorem Kin.transmit (b : Bridge I A) : Kin b b.transmit.1 :=
  Kin.set rfl rfl rfl Iff.rfl rfl id id

theorem Kin.setCompression (b : Bridge I A) (cmp : CmpOptions) : Kin b (b.setCompression cmp) :=
  Kin.set rfl rfl rfl Iff.rfl rfl id id
end
end Bridge

end Verif
