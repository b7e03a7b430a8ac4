import Verif.Spec.Tls
/-
The TLS record layer: what is staged, what is handed to rustls, and in which order.
-/
namespace Verif
open Spec

theorem owed_snoc {C : Type} (t : List (TlsEv C)) (e : TlsEv C) : unsent (t ++ [e]) = unsentStep (unsent t) e := by
  simp [unsent]

theorem accepted_snoc {C : Type} (t : List (TlsEv C)) (e : TlsEv C) :
    accepted (t ++ [e]) = acceptedStep (accepted t) e := by
  simp [accepted]

theorem disposed_append {C : Type} (t u : List (TlsEv C)) : disposed (t ++ u) = disposed t ++ disposed u := by
  induction t with
  | nil => rfl
  | cons e t ih => cases e <;> simp [disposed, ih]

namespace TlsRecords
variable {R : Rustls}

/-- What may stand in the record of calls behind `pre`. -/
def EvOk (R : Rustls) (pre : List (TlsEv R.C)) : TlsEv R.C → Prop
  | .wrote c bs => bs <+: unsent pre ∧ R.handshaking c = false
  | .closed => unsent pre = []
  | _ => True

/-- Every entry of the record is in order, and what is staged is what is unsent. -/
structure Kept (s : TlsRecords R) : Prop where
  evs : ∀ pre e post, s.trace = pre ++ e :: post → EvOk R pre e
  pend : s.pending = unsent s.trace

theorem evs_snoc {t : List (TlsEv R.C)} {e : TlsEv R.C}
    (h : ∀ pre e post, t = pre ++ e :: post → EvOk R pre e) (he : EvOk R t e) :
    ∀ pre e' post, t ++ [e] = pre ++ e' :: post → EvOk R pre e' := by
  intro pre e' post heq
  rcases List.eq_nil_or_concat post with rfl | ⟨post', l, rfl⟩
  · obtain ⟨h1, h2⟩ := List.append_inj' heq rfl
    simp only [List.cons.injEq, and_true] at h2
    rw [← h1, ← h2]; exact he
  · rw [List.concat_eq_append, ← List.cons_append, ← List.append_assoc] at heq
    exact h _ _ _ (List.append_inj' heq rfl).1

/-- A call that leaves the staged plaintext alone. -/
theorem Kept.quiet {s s' : TlsRecords R} (h : Kept s) (h1 : s'.trace = s.trace) (h2 : s'.pending = s.pending) : Kept s' :=
  ⟨by rw [h1]; exact h.evs, by rw [h1, h2]; exact h.pend⟩

theorem Kept.snoc {s s' : TlsRecords R} (h : Kept s) {e : TlsEv R.C} (h1 : s'.trace = s.trace ++ [e])
    (he : EvOk R s.trace e) (h2 : s'.pending = unsentStep s.pending e) : Kept s' :=
  ⟨by rw [h1]; exact evs_snoc h.evs he, by rw [h1, owed_snoc, h2, h.pend]⟩

theorem Kept.process {s : TlsRecords R} (h : Kept s) : Kept s.process.1 := by
  unfold TlsRecords.process
  split <;> exact h.quiet rfl rfl

theorem Kept.finish {s : TlsRecords R} (h : Kept s) (fed : Bool) : Kept (s.finishIntake fed).1 := by
  unfold finishIntake
  split
  · exact h
  · have := h.process
    split <;> (next hp => rw [hp] at this; exact this)

theorem Kept.intakeLoop (fuel : Nat) : ∀ {s : TlsRecords R} (rest : Bytes) (n : Nat) (fed : Bool), Kept s →
    Kept (intakeLoop fuel s rest n fed).1 := by
  induction fuel with
  | zero => intro s rest n fed h; exact h
  | succ fuel ih =>
    intro s rest n fed h
    simp only [TlsRecords.intakeLoop]
    split
    · exact h.finish _
    · split
      · exact h.quiet rfl rfl
      · next c _ =>
        exact Kept.finish (s := { s with conn := c, trace := s.trace ++ [.ignored rest] })
          (h.snoc (e := .ignored rest) rfl trivial rfl) _
      · next c k hk =>
        have h1 : Kept ({ s with conn := c, trace := s.trace ++ [.fed (rest.take (k + 1))] } : TlsRecords R) :=
          h.snoc rfl trivial rfl
        have h2 := h1.process
        split
        · next hp => rw [hp] at h2; exact h2
        · next hp => rw [hp] at h2; exact ih _ _ _ h2

theorem Kept.flushPending {s : TlsRecords R} (h : Kept s) : Kept s.flushPending := by
  unfold TlsRecords.flushPending
  split
  · next hc =>
    simp only [Bool.and_eq_true, Bool.not_eq_true'] at hc
    refine h.snoc (e := .wrote s.conn (s.pending.take (R.write s.conn s.pending).2)) rfl ⟨?_, hc.1⟩ ?_
    · rw [← h.pend]; exact List.take_prefix _ _
    · simp only [unsentStep, List.length_take, Nat.min_eq_left (R.write_le s.conn s.pending)]
  · exact h

theorem Kept.flushClose {s : TlsRecords R} (h : Kept s) : Kept s.flushClose := by
  unfold TlsRecords.flushClose
  simp only []
  split
  · next hc =>
    simp only [Bool.and_eq_true, List.isEmpty_iff] at hc
    refine h.flushPending.snoc (e := .closed) rfl ?_ rfl
    show unsent _ = []
    rw [← h.flushPending.pend, hc.2]
  · exact h.flushPending

theorem Kept.transmitLoop (fuel : Nat) : ∀ {s : TlsRecords R} (out : Bytes), Kept s → Kept (transmitLoop fuel s out).1 := by
  induction fuel with
  | zero => intro s out h; exact h
  | succ fuel ih =>
    intro s out h
    simp only [TlsRecords.transmitLoop]
    have h1 : Kept ({ s.flushClose with conn := (R.writeTls s.flushClose.conn).1 } : TlsRecords R) :=
      h.flushClose.quiet rfl rfl
    split
    · exact h1
    · exact ih _ h1

theorem Kept.write {s : TlsRecords R} (h : Kept s) (bs : Bytes) : Kept (s.write bs).1 := by
  unfold TlsRecords.write
  split
  · exact h
  · exact h.snoc (e := .staged bs) rfl trivial rfl

theorem Kept.sendCloseNotify {s : TlsRecords R} (h : Kept s) : Kept s.sendCloseNotify :=
  Kept.flushClose (s := { s with closeRequested := true }) (h.quiet rfl rfl)

theorem Kept.step {s : TlsRecords R} (h : Kept s) (op : Op) : Kept (s.step op) := by
  cases op with
  | intake d => exact h.intakeLoop _ _ _ _
  | transmit => exact h.transmitLoop _ _
  | read => exact h.quiet rfl rfl
  | write bs => exact h.write bs
  | setSendCapacity m => exact h.quiet rfl rfl
  | sendCloseNotify => exact h.sendCloseNotify
  | clearOutbound => exact h.snoc (e := .cleared) rfl trivial rfl

theorem Kept.new (c : R.C) : Kept (new c) := ⟨by intro pre e post h; simp [TlsRecords.new] at h, rfl⟩

theorem Kept.run {s : TlsRecords R} (h : Kept s) (ops : List Op) : Kept (s.run ops) := by
  induction ops generalizing s with
  | nil => exact h
  | cons op ops ih => exact ih (h.step op)

/-! ### The bound -/

/-- Nothing but a write makes the staged plaintext longer, and no call but one changes the limit. -/
theorem flushPending_len (s : TlsRecords R) :
    s.flushPending.pending.length ≤ s.pending.length ∧ s.flushPending.sendLimit = s.sendLimit ∧
      s.flushPending.closeRequested = s.closeRequested := by
  unfold TlsRecords.flushPending
  split
  · exact ⟨by simp, rfl, rfl⟩
  · exact ⟨Nat.le_refl _, rfl, rfl⟩

theorem flushClose_len (s : TlsRecords R) :
    s.flushClose.pending.length ≤ s.pending.length ∧ s.flushClose.sendLimit = s.sendLimit := by
  have := s.flushPending_len
  unfold TlsRecords.flushClose
  simp only []
  split
  · exact ⟨this.1, this.2.1⟩
  · exact ⟨this.1, this.2.1⟩

theorem transmitLoop_len (fuel : Nat) : ∀ (s : TlsRecords R) (out : Bytes),
    (transmitLoop fuel s out).1.pending.length ≤ s.pending.length ∧ (transmitLoop fuel s out).1.sendLimit = s.sendLimit := by
  induction fuel with
  | zero => intro s out; exact ⟨Nat.le_refl _, rfl⟩
  | succ fuel ih =>
    intro s out
    simp only [TlsRecords.transmitLoop]
    have h := s.flushClose_len
    split
    · exact h
    · have := ih ({ s.flushClose with conn := (R.writeTls s.flushClose.conn).1 }) (out ++ (R.writeTls s.flushClose.conn).2)
      exact ⟨Nat.le_trans this.1 h.1, this.2.trans h.2⟩

/-- What intake leaves alone. -/
theorem process_same (s : TlsRecords R) : s.process.1.pending = s.pending ∧ s.process.1.sendLimit = s.sendLimit ∧
    s.process.1.trace = s.trace ∧ s.process.1.closeRequested = s.closeRequested := by
  unfold TlsRecords.process
  split <;> exact ⟨rfl, rfl, rfl, rfl⟩

theorem finish_same (s : TlsRecords R) (fed : Bool) :
    (s.finishIntake fed).1.pending = s.pending ∧ (s.finishIntake fed).1.sendLimit = s.sendLimit ∧
      (s.finishIntake fed).1.trace = s.trace ∧ (s.finishIntake fed).1.closeRequested = s.closeRequested := by
  unfold finishIntake
  split
  · exact ⟨rfl, rfl, rfl, rfl⟩
  · have := s.process_same
    split <;> (next hp => rw [hp] at this; exact this)

theorem finish_res (s : TlsRecords R) (fed : Bool) : (s.finishIntake fed).2 = .done ∨ (s.finishIntake fed).2 = .failed := by
  unfold finishIntake
  split
  · exact .inl rfl
  · split
    · exact .inr rfl
    · exact .inl rfl

/-- What one delivery of ciphertext does, in terms of the record of calls. -/
theorem intakeLoop_spec (fuel : Nat) : ∀ (s : TlsRecords R) (rest : Bytes) (n : Nat) (fed : Bool), rest.length < fuel →
    (intakeLoop fuel s rest n fed).1.pending = s.pending ∧ (intakeLoop fuel s rest n fed).1.sendLimit = s.sendLimit ∧
    (intakeLoop fuel s rest n fed).1.closeRequested = s.closeRequested ∧
    ∃ t, (intakeLoop fuel s rest n fed).1.trace = s.trace ++ t ∧
      (∀ e ∈ t, (∃ bs, e = .fed bs ∧ bs ≠ []) ∨ ∃ bs, e = .ignored bs) ∧
      match (intakeLoop fuel s rest n fed).2 with
      | .done => disposed t = rest
      | .pending k => ∃ m, k = n + m ∧ m ≤ rest.length ∧ disposed t = rest.take m ∧ ∀ bs, .ignored bs ∉ t
      | .failed => disposed t <+: rest := by
  induction fuel with
  | zero => intro s rest n fed h; omega
  | succ fuel ih =>
    intro s rest n fed hf
    simp only [TlsRecords.intakeLoop]
    split
    · next hr =>
      obtain ⟨h1, h2, h3, h4⟩ := s.finish_same fed
      refine ⟨h1, h2, h4, [], by simp [h3], by simp, ?_⟩
      rcases s.finish_res fed with h | h <;> rw [h] <;> simp [disposed, hr]
    · split
      · exact ⟨rfl, rfl, rfl, [], by simp, by simp, 0, by simp, by simp, by simp [disposed], by simp⟩
      · next c _ =>
        obtain ⟨h1, h2, h3, h4⟩ := finish_same ({ s with conn := c, trace := s.trace ++ [.ignored rest] } : TlsRecords R) fed
        refine ⟨h1, h2, h4, [.ignored rest], h3, by simp, ?_⟩
        rcases finish_res ({ s with conn := c, trace := s.trace ++ [.ignored rest] } : TlsRecords R) fed with h | h <;>
          rw [h] <;> simp [disposed]
      · next c k hk =>
        have hle : k + 1 ≤ rest.length := R.read_le s.conn rest (k + 1) (by rw [hk])
        obtain ⟨h1, h2, h3, h4⟩ := process_same ({ s with conn := c, trace := s.trace ++ [.fed (rest.take (k + 1))] } : TlsRecords R)
        have hne : rest.take (k + 1) ≠ [] := by
          intro h
          have := congrArg List.length h
          simp only [List.length_take, List.length_nil] at this
          omega
        split
        · next s' hp =>
          rw [hp] at h1 h2 h3 h4
          exact ⟨h1, h2, h4, [.fed (rest.take (k + 1))], h3,
            fun e he => by rw [List.mem_singleton.1 he]; exact .inl ⟨_, rfl, hne⟩,
            by simpa [disposed] using List.take_prefix _ _⟩
        · next s' hp =>
          rw [hp] at h1 h2 h3 h4
          obtain ⟨g1, g2, g3, t, g4, g5, g6⟩ := ih s' (rest.drop (k + 1)) (n + (k + 1)) true (by simp; omega)
          refine ⟨g1.trans h1, g2.trans h2, g3.trans h4, .fed (rest.take (k + 1)) :: t, ?_, ?_, ?_⟩
          · rw [g4, h3]; simp
          · intro e he
            rcases List.mem_cons.1 he with rfl | he
            · exact .inl ⟨_, rfl, hne⟩
            · exact g5 e he
          · revert g6
            generalize (intakeLoop fuel s' (rest.drop (k + 1)) (n + (k + 1)) true).2 = res
            intro g6
            cases res with
            | done => simp only [disposed, g6, List.take_append_drop]
            | pending j =>
              obtain ⟨m, e1, e2, e3, e4⟩ := g6
              refine ⟨k + 1 + m, by omega, by simp at e2; omega, ?_, by simpa using e4⟩
              simp only [disposed, e3]
              rw [← List.take_add]
            | failed =>
              simp only [disposed]
              obtain ⟨x, hx⟩ := g6
              exact ⟨x, by rw [List.append_assoc, hx, List.take_append_drop]⟩

/-- More fuel than the loop has changes nothing: a round takes at least one byte. -/
theorem intake_fuel (fuel : Nat) : ∀ (s : TlsRecords R) (rest : Bytes) (n : Nat) (fed : Bool), rest.length < fuel →
    intakeLoop (fuel + 1) s rest n fed = intakeLoop fuel s rest n fed := by
  induction fuel with
  | zero => intro s rest n fed h; omega
  | succ fuel ih =>
    intro s rest n fed hf
    rw [TlsRecords.intakeLoop, TlsRecords.intakeLoop]
    split
    · rfl
    · split
      · rfl
      · rfl
      · next c k hk =>
        have hle : k + 1 ≤ rest.length := R.read_le s.conn rest (k + 1) (by rw [hk])
        simp only []
        split
        · rfl
        · exact ih _ _ _ _ (by simp; omega)

theorem intake_spec (s : TlsRecords R) (data : Bytes) :
    (s.intake data).1.pending = s.pending ∧ (s.intake data).1.sendLimit = s.sendLimit ∧
    (s.intake data).1.closeRequested = s.closeRequested ∧
    ∃ t, (s.intake data).1.trace = s.trace ++ t ∧
      (∀ e ∈ t, (∃ bs, e = .fed bs ∧ bs ≠ []) ∨ ∃ bs, e = .ignored bs) ∧
      match (s.intake data).2 with
      | .done => disposed t = data
      | .pending k => k ≤ data.length ∧ disposed t = data.take k ∧ ∀ bs, .ignored bs ∉ t
      | .failed => disposed t <+: data := by
  obtain ⟨h1, h2, h3, t, h4, h5, h6⟩ := intakeLoop_spec (data.length + 1) s data 0 false (by omega)
  refine ⟨h1, h2, h3, t, h4, h5, ?_⟩
  unfold intake
  revert h6
  generalize (intakeLoop (data.length + 1) s data 0 false).2 = res
  intro h6
  cases res with
  | done => exact h6
  | pending k =>
    obtain ⟨m, e1, e2, e3, e4⟩ := h6
    have : k = m := by omega
    subst this
    exact ⟨e2, e3, e4⟩
  | failed => exact h6

theorem bound_step {s : TlsRecords R} (h : s.pending.length ≤ s.sendLimit) (op : Op) (ho : ∀ m, op ≠ .setSendCapacity m) :
    (s.step op).pending.length ≤ (s.step op).sendLimit ∧ (s.step op).sendLimit = s.sendLimit := by
  cases op with
  | intake d =>
    obtain ⟨h1, h2, _⟩ := s.intake_spec d
    simp only [step]
    rw [h1, h2]; exact ⟨h, rfl⟩
  | transmit =>
    have := transmitLoop_len (2 * s.pending.length + 2) s []
    simp only [step, transmit]
    exact ⟨by rw [this.2]; exact Nat.le_trans this.1 h, this.2⟩
  | read => exact ⟨h, rfl⟩
  | write bs =>
    simp only [step, TlsRecords.write]
    split
    · exact ⟨h, rfl⟩
    · exact ⟨by simp; omega, rfl⟩
  | setSendCapacity m => exact absurd rfl (ho m)
  | sendCloseNotify =>
    have := ({ s with closeRequested := true } : TlsRecords R).flushClose_len
    simp only [step, TlsRecords.sendCloseNotify]
    exact ⟨by rw [this.2]; exact Nat.le_trans this.1 h, this.2⟩
  | clearOutbound => exact ⟨Nat.zero_le _, rfl⟩

theorem bound_run (ops : List Op) : ∀ {s : TlsRecords R}, s.pending.length ≤ s.sendLimit →
    (∀ op ∈ ops, ∀ m, op ≠ .setSendCapacity m) →
    (s.run ops).pending.length ≤ (s.run ops).sendLimit ∧ (s.run ops).sendLimit = s.sendLimit := by
  induction ops with
  | nil => intro s h _; exact ⟨h, rfl⟩
  | cons op ops ih =>
    intro s h ho
    obtain ⟨h1, h2⟩ := bound_step h op (ho op (by simp))
    obtain ⟨h3, h4⟩ := ih h1 (fun op' h' => ho op' (by simp [h']))
    exact ⟨h3, h4.trans h2⟩

/-! ### Sending to the end -/

variable {ok : R.C → Prop}

theorem flushPending_ok (hS : Sends R ok) {s : TlsRecords R} (h : ok s.conn) : ok s.flushPending.conn := by
  unfold TlsRecords.flushPending
  split
  · exact hS.ok_write _ _ h
  · exact h

theorem flushPending_hs (hS : Sends R ok) (s : TlsRecords R) : R.handshaking s.flushPending.conn = R.handshaking s.conn := by
  unfold TlsRecords.flushPending
  split
  · exact hS.hs_write _ _
  · rfl

/-- While something is left, closing is not asked for. -/
theorem flushClose_left {s : TlsRecords R} (h : s.flushClose.pending ≠ []) : s.flushClose = s.flushPending := by
  unfold TlsRecords.flushClose at *
  simp only [] at *
  split
  · next hc =>
    rw [if_pos hc] at h
    simp only [Bool.and_eq_true, List.isEmpty_iff] at hc
    exact absurd hc.2 h
  · rfl

theorem flushClose_pending (s : TlsRecords R) : s.flushClose.pending = s.flushPending.pending := by
  unfold TlsRecords.flushClose
  simp only []
  split <;> rfl

theorem flushClose_done {s : TlsRecords R} (h : s.flushClose.pending = []) : s.flushClose.closeRequested = false := by
  rw [flushClose_pending] at h
  unfold TlsRecords.flushClose
  simp only []
  split
  · rfl
  · next hc =>
    simp only [h, List.isEmpty_nil, Bool.and_true, Bool.not_eq_true] at hc
    exact hc

/-- A connection that takes nothing although it is not handshaking is left alone. -/
theorem flushPending_stuck (hS : Sends R ok) {s : TlsRecords R}
    (h : ¬ s.flushPending.pending.length < s.pending.length) : s.flushPending.conn = s.conn := by
  unfold TlsRecords.flushPending at *
  split
  · next hc =>
    rw [if_pos hc] at h
    simp only [Bool.and_eq_true, Bool.not_eq_true', List.isEmpty_eq_false_iff] at hc
    simp only [List.length_drop] at h
    have hle := R.write_le s.conn s.pending
    have hpos := List.length_pos_iff.2 hc.2
    exact hS.none _ _ (by omega)
  · rfl

/-- A connection that has nothing to send takes something. -/
theorem flushPending_room (hS : Sends R ok) {s : TlsRecords R} (hc : ok s.conn) (hs : (R.writeTls s.conn).2 = [])
    (hh : R.handshaking s.conn = false) (hp : s.pending ≠ []) : s.flushPending.pending.length < s.pending.length := by
  unfold TlsRecords.flushPending
  rw [if_pos (by simp [hh, hp])]
  simp only [List.length_drop]
  have := hS.room s.conn s.pending hc hp hh hs
  have hpos := List.length_pos_iff.2 hp
  omega

/-- The loop sends to the end. -/
theorem transmitLoop_flushed (hS : Sends R ok) (fuel : Nat) : ∀ (s : TlsRecords R) (out : Bytes), ok s.conn →
    R.handshaking s.conn = false →
    (2 * s.pending.length + 2 ≤ fuel ∨ (2 * s.pending.length + 1 ≤ fuel ∧ (R.writeTls s.conn).2 = [])) →
    (transmitLoop fuel s out).1.pending = [] ∧ (transmitLoop fuel s out).1.closeRequested = false := by
  induction fuel with
  | zero => intro s out _ _ h; omega
  | succ fuel ih =>
    intro s out hok hh hf
    simp only [TlsRecords.transmitLoop]
    by_cases hp : s.flushClose.pending = []
    · rw [if_pos (by simp [hp])]
      exact ⟨hp, flushClose_done hp⟩
    · have he := flushClose_left hp
      have hp' : s.flushPending.pending ≠ [] := by rw [← he]; exact hp
      rw [he]
      have hok' := flushPending_ok hS hok
      have hh' : R.handshaking (R.writeTls s.flushPending.conn).1 = false := by
        rw [hS.hs, flushPending_hs hS]; exact hh
      have hle := s.flushPending_len.1
      have hne : s.pending ≠ [] := fun h => hp' (by
        have := hle; rw [h] at this; exact List.length_eq_zero_iff.1 (Nat.le_zero.1 this))
      by_cases hlt : s.flushPending.pending.length < s.pending.length
      · rw [if_neg (by simp [hp', hlt])]
        refine ih _ _ (hS.ok_writeTls _ hok') hh' (.inr ⟨?_, hS.rest _⟩)
        simp only []
        rcases hf with hf | ⟨hf, _⟩ <;> omega
      · have hconn := flushPending_stuck hS hlt
        have hnot : ¬ (R.writeTls s.conn).2 = [] := fun hc => hlt (flushPending_room hS hok hc hh hne)
        have hf' : 2 * s.pending.length + 2 ≤ fuel + 1 := by
          rcases hf with hf | ⟨_, hf⟩
          · exact hf
          · exact absurd hf hnot
        have hpend : s.flushPending.pending.length = s.pending.length := by omega
        split
        · next hc =>
          exfalso
          simp only [List.isEmpty_iff, Bool.or_eq_true, Bool.and_eq_true] at hc
          rcases hc with hc | ⟨_, hc⟩
          · exact hp' hc
          · rw [hconn] at hc; exact hnot hc
        · refine ih _ _ (hS.ok_writeTls _ hok') hh' (.inr ⟨?_, hS.rest _⟩)
          simp only []
          omega
end TlsRecords
end Verif
