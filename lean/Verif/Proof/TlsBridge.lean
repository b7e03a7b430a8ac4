import Verif.Proof.TlsPlain
/-
The exchange over TLS: what it commits.
-/
namespace Verif
open Spec

namespace TBridge
variable {I A : Type} {R : Rustls} {T : TEnv}

/-- The exchange as plain TCP would have it. -/
def plain (b : TBridge I A R) : Bridge I A :=
  { xid := 0, sealed := b.sealed, stream := b.stream, records := b.records.plain, sentAny := b.sentAny,
    finSent := b.finSent, pendingEof := b.pendingEof, phase := b.phase, deadline := b.deadline, cmp := b.cmp,
    precompressed := b.precompressed, ring := none, accum := b.accum, max := b.max }

theorem plain_failed (b : TBridge I A R) : b.plain.isFailed = b.isFailed := rfl
theorem plain_terminal (b : TBridge I A R) : b.plain.isTerminal = b.isTerminal := rfl

theorem plain_fail (b : TBridge I A R) (r : LinkFail) : (b.fail r).plain = b.plain.fail r := by
  unfold TBridge.fail Bridge.fail
  rw [plain_failed]
  split
  · rfl
  · simp only [plain, LabeledTls.plain_clear]
    congr

theorem plain_retire (b : TBridge I A R) : b.retire.plain = b.plain.retire := by
  unfold TBridge.retire Bridge.retire
  cases hf : b.finSent
  · simp only [plain, LabeledTls.plain_discard, LabeledTls.plain_closeNotify, Bool.false_eq_true, if_false]
  · simp only [plain, LabeledTls.plain_discard, if_true]

theorem plain_failWithRetire (b : TBridge I A R) (r : LinkFail) : (b.failWithRetire r).plain = b.plain.failWithRetire r := by
  unfold TBridge.failWithRetire Bridge.failWithRetire
  rw [plain_fail, plain_retire]

theorem plain_observeSendFin (b : TBridge I A R) : b.observeSendFin.plain = b.plain.observeSendFin := by
  unfold TBridge.observeSendFin Bridge.observeSendFin
  have : b.plain.phase = b.phase := rfl
  rw [this]
  cases b.phase <;> rfl

theorem plain_observeRecvFin (b : TBridge I A R) : b.observeRecvFin.plain = b.plain.observeRecvFin := by
  unfold TBridge.observeRecvFin Bridge.observeRecvFin
  have : b.plain.phase = b.phase := rfl
  rw [this]
  cases b.phase <;> rfl

theorem plain_closeSend (b : TBridge I A R) (s : Stream I A) : (b.closeSend s).plain = b.plain.closeSend s := by
  unfold TBridge.closeSend Bridge.closeSend
  split
  · exact plain_failWithRetire _ _
  · have h1 : b.plain.finSent = b.finSent := rfl
    have h2 : b.plain.sentAny = b.sentAny := rfl
    rw [plain_failed, h1, h2]
    split
    · rw [plain_observeSendFin]
      simp only [plain, LabeledTls.plain_closeNotify]
    · rfl

/-- A later state. -/
structure TKin (b b' : TBridge I A R) : Prop where
  kin : Bridge.Kin b.plain b'.plain
  passed : b.records.passed <+: b'.records.passed
  via : TlsRecords.Via b.records.inner b'.records.inner

theorem TKin.refl (b : TBridge I A R) : TKin b b := ⟨.refl _, List.prefix_refl _, .refl _⟩

theorem TKin.trans {a b c : TBridge I A R} (h : TKin a b) (g : TKin b c) : TKin a c :=
  ⟨h.kin.trans g.kin, h.passed.trans g.passed, h.via.trans g.via⟩

theorem TKin.set {b b' : TBridge I A R} (hm : b'.max = b.max) (hs : b'.stream = none ↔ b.stream = none)
    (hp : b'.phase = b.phase) (hl : LabeledTls.LKin b.records b'.records)
    (hf : b.finSent = true → b'.finSent = true) : TKin b b' :=
  ⟨Bridge.Kin.set rfl hm rfl hs hp hl.lab hf, hl.passed, hl.via⟩

theorem TKin.fail (b : TBridge I A R) (r : LinkFail) : TKin b (b.fail r) := by
  refine ⟨by rw [plain_fail]; exact .fail _ _, ?_, ?_⟩
  · unfold TBridge.fail; split
    · exact List.prefix_refl _
    · exact (LabeledTls.LKin.clearOutbound b.records).passed
  · unfold TBridge.fail; split
    · exact .refl _
    · exact (LabeledTls.LKin.clearOutbound b.records).via

theorem TKin.retire (b : TBridge I A R) : TKin b b.retire := by
  refine TKin.set rfl Iff.rfl rfl ?_ (fun _ => rfl)
  unfold TBridge.retire
  simp only []
  split
  · exact .discard _
  · exact (LabeledTls.LKin.sendCloseNotify _).trans (.discard _)

theorem TKin.failWithRetire (b : TBridge I A R) (r : LinkFail) : TKin b (b.failWithRetire r) :=
  (TKin.retire b).trans (TKin.fail _ r)

theorem observeSendFin_records (b : TBridge I A R) : b.observeSendFin.records = b.records := by
  unfold TBridge.observeSendFin; split <;> rfl

theorem observeRecvFin_records (b : TBridge I A R) : b.observeRecvFin.records = b.records := by
  unfold TBridge.observeRecvFin; split <;> rfl

theorem TKin.observeSendFin (b : TBridge I A R) (hs : b.stream ≠ none) : TKin b b.observeSendFin :=
  ⟨by rw [plain_observeSendFin]; exact .observeSendFin _ hs, by rw [observeSendFin_records]; exact List.prefix_refl _,
    by rw [observeSendFin_records]; exact .refl _⟩

theorem TKin.observeRecvFin (b : TBridge I A R) (hs : b.stream ≠ none) : TKin b b.observeRecvFin :=
  ⟨by rw [plain_observeRecvFin]; exact .observeRecvFin _ hs, by rw [observeRecvFin_records]; exact List.prefix_refl _,
    by rw [observeRecvFin_records]; exact .refl _⟩

theorem TKin.closeSend (b : TBridge I A R) (s : Stream I A) (hs : b.stream ≠ none) : TKin b (b.closeSend s) := by
  unfold TBridge.closeSend
  split
  · exact .failWithRetire _ _
  · split
    · refine TKin.trans (b := { b with records := b.records.sendCloseNotify, finSent := true }) ?_ (.observeSendFin _ hs)
      exact TKin.set rfl Iff.rfl rfl (.sendCloseNotify _) (fun _ => rfl)
    · exact .refl b

theorem admit_kin (r : LabeledTls R) (u : Bytes × Bytes) : LabeledTls.LKin r (admit r u).1 := by
  unfold admit
  simp only []
  split
  · exact (LabeledTls.LKin.write r _).trans (.write _ _)
  · exact .write r _

theorem TKin.pumpOut (b : TBridge I A R) (now : Nat) : TKin b (b.pumpOut T now) := by
  unfold TBridge.pumpOut
  split
  · exact .fail b _
  · split
    · exact .refl b
    · next s hs =>
      split
      · exact .failWithRetire b _
      · split
        · exact .failWithRetire b _
        · split
          · next s' _ =>
            refine TKin.trans (b := { b with stream := some s' }) ?_ (.closeSend _ _ (by simp))
            exact TKin.set rfl (by simp [hs]) rfl (.refl _) id
          · next s' chunks _ =>
            simp only []
            split
            · refine TKin.trans ?_ (.closeSend _ _ (by simp))
              exact TKin.set rfl (by simp [hs]) rfl (admit_kin _ _) id
            · refine TKin.trans ?_ (.failWithRetire _ _)
              exact TKin.set rfl (by simp [hs]) rfl (admit_kin _ _) id

theorem admit_plain (r : LabeledTls R) (u : Bytes × Bytes) (h : (admit r u).2 = true) :
    (admit r u).1.plain = r.plain.write (u.1 ++ u.2) := by
  have key : ∀ (s : TlsRecords R) (bs : Bytes), (s.write bs).2 = true → accepted (s.write bs).1.trace = accepted s.trace ++ bs := by
    intro s bs hw
    unfold TlsRecords.write at hw ⊢
    split
    · next hc => rw [if_pos hc] at hw; cases hw
    · exact accepted_snoc _ _
  unfold admit at h ⊢
  simp only [] at h ⊢
  split at h
  · next h1 =>
    rw [if_pos h1]
    have k1 := key _ _ h1
    have k2 := key _ _ h
    simp only [LabeledTls.plain, LabeledTls.write, Labeled.write] at *
    rw [k2, k1, List.append_assoc]
  · cases h

theorem unit_plain (b : TBridge I A R) (body : Bytes) : b.plain.unit T body = .ok ((b.unit T body).1 ++ (b.unit T body).2) := rfl

/-- What the outbound pump does: what it does on plain TCP, or it fails because rustls has no room for the unit. -/
inductive TOut (T : TEnv) (b : TBridge I A R) (now : Nat) : TBridge I A R → Prop
  | plain (b' : TBridge I A R) : Bridge.PumpOut T b.plain now b'.plain → TOut T b now b'
  | refused (s s' : Stream I A) (chunks : List Bytes) (b' : TBridge I A R) : b.stream = some s → b.isFailed = false →
      s.isFailed = false → s.pollTransmit now = (s', some chunks) →
      b'.plain = ({ b.plain with stream := some s', sentAny := true } : Bridge I A).failWithRetire .transport →
      TOut T b now b'

/-- What a failing bridge had to say does not matter. -/
theorem kill_records (b : Bridge I A) (hf : b.isFailed = false) (l1 l2 : Labeled) (r : LinkFail) (hg : l1.gate = l2.gate)
    (hp : l1.prefixEmitted = l2.prefixEmitted) :
    ({ b with records := l1 } : Bridge I A).failWithRetire r = ({ b with records := l2 } : Bridge I A).failWithRetire r := by
  have h : ∀ l : Labeled, ({ b with records := l } : Bridge I A).failWithRetire r =
      { b with
        finSent := true
        stream := if b.phase = .recvClosed ∨ b.phase = .bothClosed then b.stream else b.stream.map Stream.discardPending
        records := ⟨l.gate.clear, [], [], l.prefixEmitted, []⟩
        phase := .failed r } := by
    intro l
    unfold Bridge.failWithRetire Bridge.fail
    rw [if_neg (by rw [show (({ b with records := l } : Bridge I A).retire).isFailed = b.isFailed from rfl, hf]; simp)]
    rfl
  rw [h, h, hg, hp]

theorem pumpOut_plain (b : TBridge I A R) (now : Nat) : TOut T b now (b.pumpOut T now) := by
  have key : (b.pumpOut T now).plain = b.plain.pumpOut T now ∨ ∃ s s' chunks, b.stream = some s ∧ b.isFailed = false ∧
      s.isFailed = false ∧ s.pollTransmit now = (s', some chunks) ∧
      (b.pumpOut T now).plain = ({ b.plain with stream := some s', sentAny := true } : Bridge I A).failWithRetire .transport := by
    unfold TBridge.pumpOut Bridge.pumpOut
    have e1 : b.plain.phase = b.phase := rfl
    have e2 : b.plain.deadline = b.deadline := rfl
    have e3 : b.plain.stream = b.stream := rfl
    rw [e1, e2, e3]
    split
    · exact .inl (plain_fail _ _)
    · cases hs : b.stream with
      | none => exact .inl rfl
      | some s =>
        simp only []
        rw [plain_failed, plain_terminal]
        split
        · exact .inl (plain_failWithRetire _ _)
        · next hf =>
          simp only [Bool.or_eq_true, not_or, Bool.not_eq_true] at hf
          split
          · exact .inl (plain_failWithRetire _ _)
          · cases hp : s.pollTransmit now with
            | mk s' o =>
              cases o with
              | none => exact .inl (plain_closeSend ({ b with stream := some s' } : TBridge I A R) s')
              | some chunks =>
                simp only []
                have hu := unit_plain (T := T) ({ b with stream := some s', sentAny := true } : TBridge I A R) chunks.flatten
                split
                · next ha =>
                  left
                  rw [plain_closeSend]
                  have ha' := admit_plain _ _ ha
                  simp only [plain] at hu ⊢
                  rw [hu, ha']
                · next ha =>
                  right
                  refine ⟨s, s', chunks, rfl, hf.1, hf.2, hp, ?_⟩
                  rw [plain_failWithRetire]
                  have hg : ∀ (r : LabeledTls R) u, (admit r u).1.gate = r.gate ∧ (admit r u).1.prefixEmitted = r.prefixEmitted := by
                    intro r u; unfold admit; simp only []; split <;> exact ⟨rfl, rfl⟩
                  exact kill_records ({ b.plain with stream := some s', sentAny := true } : Bridge I A) hf.1 _ _ _
                    (hg _ _).1 (hg _ _).2
  rcases key with h | ⟨s, s', chunks, h1, h2, h3, h4, h5⟩
  · exact .plain _ (by rw [h]; exact Bridge.pumpOut_cases _ _)
  · exact .refused s s' chunks _ h1 h2 h3 h4 h5
end TBridge
end Verif
