import Verif.Proof.Tls
/-
The record layer of reliable exchanges over TLS.
-/
namespace Verif.Props
open Verif Spec TlsRecords
variable {R : Rustls}

/-- C108. Plaintext reaches rustls only after the handshake, and exactly in the order in which it was accepted: what is
handed over next is always the beginning of what is still unsent. -/
theorem C108_order (c : R.C) (ops : List TlsRecords.Op) {pre post : List (TlsEv R.C)} {c' : R.C} {bs : Bytes}
    (h : ((new c).run ops).trace = pre ++ .wrote c' bs :: post) : bs <+: unsent pre ∧ R.handshaking c' = false :=
  ((Kept.new c).run ops).evs _ _ _ h

/-- C108. The close of this side never overtakes plaintext: when rustls is told to close, nothing is unsent. -/
theorem C108_close (c : R.C) (ops : List TlsRecords.Op) {pre post : List (TlsEv R.C)}
    (h : ((new c).run ops).trace = pre ++ .closed :: post) : unsent pre = [] :=
  ((Kept.new c).run ops).evs _ _ _ h

/-- C108. What the record layer holds back is exactly what it owes, and never more than the limit that follows from the
configured frame size. -/
theorem C108_bound (c : R.C) (maxFrame : Nat) (ops : List TlsRecords.Op) (ho : ∀ op ∈ ops, ∀ m, op ≠ .setSendCapacity m) :
    (((new c).setSendCapacity maxFrame).run ops).pending = unsent (((new c).setSendCapacity maxFrame).run ops).trace ∧
      (((new c).setSendCapacity maxFrame).run ops).pending.length ≤ sizedSendLimit maxFrame := by
  refine ⟨((Kept.new c).step (.setSendCapacity maxFrame) |>.run ops).pend, ?_⟩
  have := bound_run (s := (new c).setSendCapacity maxFrame) ops (Nat.zero_le _) ho
  rw [this.2] at this
  exact this.1

/-- C108. A unit is staged whole or not at all; it is refused exactly when the limit would be passed. -/
theorem C108_whole (s : TlsRecords R) (bs : Bytes) :
    ((s.write bs).2 = true ∧ (s.write bs).1.pending = s.pending ++ bs ∧ s.pending.length + bs.length ≤ s.sendLimit) ∨
      (s.write bs = (s, false) ∧ s.sendLimit < s.pending.length + bs.length) := by
  unfold TlsRecords.write
  split
  · next h => exact .inr ⟨rfl, h⟩
  · next h => exact .inl ⟨rfl, rfl, by omega⟩

/-- C108. A drain after the handshake leaves nothing behind: everything accepted has been handed to rustls, and a close
that was asked for has been passed on. -/
theorem C108_flushed {ok : R.C → Prop} (hS : Sends R ok) (c : R.C) (ops : List TlsRecords.Op)
    (hok : ok ((new c).run ops).conn) (hh : R.handshaking ((new c).run ops).conn = false) :
    unsent (((new c).run ops).transmit.1).trace = [] ∧ ((new c).run ops).transmit.1.closeRequested = false := by
  have h := transmitLoop_flushed hS (2 * ((new c).run ops).pending.length + 2) ((new c).run ops) [] hok hh (.inl (Nat.le_refl _))
  refine ⟨?_, h.2⟩
  have hk : Kept ((new c).run ops).transmit.1 := ((Kept.new c).run ops).transmitLoop _ _
  rw [← hk.pend]
  exact h.1

/-- C108. One delivery from the transport reaches rustls in order and without gaps. All of it has been disposed of when
the record layer reports that it is done; when it reports back-pressure after `n` bytes, exactly the first `n` have been
taken. Nothing that is waiting to be sent is touched. -/
theorem C108_intake (s : TlsRecords R) (data : Bytes) :
    (s.intake data).1.pending = s.pending ∧
    ∃ t, (s.intake data).1.trace = s.trace ++ t ∧
      match (s.intake data).2 with
      | .done => disposed t = data
      | .pending n => n ≤ data.length ∧ disposed t = data.take n ∧ ∀ bs, .ignored bs ∉ t
      | .failed => disposed t <+: data := by
  obtain ⟨h1, _, _, t, h4, _, h6⟩ := s.intake_spec data
  exact ⟨h1, t, h4, h6⟩

/-! A toy rustls: the handshake is one byte `22`, the cipher is the identity, a byte `21` is the alert that closes; at
most three bytes of plaintext are buffered in, and at most two are accepted before they are sent. -/
structure ToyConn where
  hs : Bool := true
  inp : Bytes := []
  plain : Bytes := []
  out : Bytes := []
  gone : Bool := false

/-- The toy rustls. -/
def toy : Rustls where
  C := ToyConn
  readTls c bs := if c.plain.length ≥ 3 then (c, none) else ({ c with inp := bs.take 1 }, some (bs.take 1).length)
  process c :=
    if c.inp = [] then (c, some c.gone)
    else if c.hs then
      if c.inp = [22] then ({ c with hs := false, inp := [] }, some c.gone) else (c, none)
    else if c.inp = [21] then ({ c with inp := [], gone := true }, some true)
    else ({ c with inp := [], plain := c.plain ++ c.inp }, some c.gone)
  handshaking c := c.hs
  drain c := ({ c with plain := [] }, c.plain)
  write c bs := ({ c with out := c.out ++ bs.take (2 - c.out.length) }, (bs.take (2 - c.out.length)).length)
  writeTls c := ({ c with out := [] }, c.out)
  closeNotify c := { c with out := c.out ++ [21] }
  setLimit c _ := c
  read_le c bs n h := by
    by_cases hc : c.plain.length ≥ 3
    · simp [hc] at h
    · simp [hc] at h; omega
  write_le c bs := by simp only [List.length_take]; omega
  drain_drain c := rfl

/-- The toy rustls sends what it has and then takes more. -/
theorem toy_sends : Sends toy (fun _ => True) where
  ok_write _ _ _ := trivial
  ok_writeTls _ _ := trivial
  rest _ := rfl
  none c bs h := by
    simp only [toy, List.length_eq_zero_iff] at h ⊢
    rw [h, List.append_nil]
    rfl
  room c bs _ hb _ ho := by
    simp only [toy] at ho ⊢
    rw [ho]
    have := List.length_pos_iff.2 hb
    simp only [List.length_nil, Nat.sub_zero, List.length_take]
    omega
  hs _ := rfl
  hs_write _ _ := rfl

/-- Plaintext staged during the handshake stays behind; after it, five bytes pass a window of two in one drain, and the
close follows them. -/
example :
    ((new (R := toy) {}).run [.write [1, 2, 3, 4, 5], .transmit]).pending = [1, 2, 3, 4, 5] ∧
    ((new (R := toy) {}).run [.write [1, 2, 3, 4, 5], .intake [22], .sendCloseNotify]).pending = [3, 4, 5] ∧
    ((new (R := toy) {}).run [.write [1, 2, 3, 4, 5], .intake [22], .sendCloseNotify]).transmit.2 = [1, 2, 3, 4, 5, 21] ∧
    ((new (R := toy) {}).run [.write [1, 2, 3, 4, 5], .intake [22], .sendCloseNotify]).closeRequested = true := by
  decide

/-- Back-pressure after four bytes: the handshake and three of plaintext. -/
example : ((new (R := toy) {}).intake [22, 1, 2, 3, 4, 5]).2 = .pending 4 ∧
    (((new (R := toy) {}).intake [22, 1, 2, 3, 4, 5]).1.read.1.intake [4, 5]).2 = .done ∧
    (((new (R := toy) {}).intake [22, 1, 2, 3, 4, 5]).1.read.1.intake [4, 5]).1.read.2 = [4, 5] := by
  decide

end Verif.Props
