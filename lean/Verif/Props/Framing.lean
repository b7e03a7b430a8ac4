import Verif.Proof.Framing
/-
Properties C01-C04: varints, plain frames, compound packets.
Specification: `Verif.Spec.Varint`, `Verif.Spec.Framing` (the wire grammar).
-/
namespace Verif.Props
open Verif Verif.Spec

/-! ### C01 varint round-trip and self-delimitation -/

/-- C01. Encoding a `u32` and decoding it in front of any other bytes gives the value back and
consumes exactly the encoder's bytes, of which there are one to five. -/
theorem C01_varint_roundtrip (v : Nat) (hv : v < 2 ^ 32) (rest : Bytes) :
    decodeVarint (encodeVarint v ++ rest) = .ok (v, (encodeVarint v).length) ∧
      1 ≤ (encodeVarint v).length ∧ (encodeVarint v).length ≤ 5 := by
  refine ⟨decodeVarint_encodeVarint v hv rest, ?_, ?_⟩
  · rw [encodeVarint_length]; exact varintLen_pos v
  · rw [encodeVarint_length]; exact varintLen_le_five hv

/-- C01. The encoder writes a LEB128 numeral of exactly the value (wire-format conformance). -/
theorem C01_varint_encodes_leb128 (v : Nat) : Leb128 (encodeVarint v) v :=
  encodeVarint_leb128 v

/-- C01. The precomputed length used for pre-sizing is the number of bytes written. -/
theorem C01_varint_len_exact (v : Nat) : varintLen v = (encodeVarint v).length :=
  (encodeVarint_length v).symm

example : (300 : Nat) < 2 ^ 32 ∧ encodeVarint 300 = [0xac, 0x02] := by
  refine ⟨by decide, ?_⟩
  simp [encodeVarint]
example : decodeVarint [0xac, 0x02, 0xff] = .ok (300, 2) := by decide

/-! ### C02 varint decoder totality and strictness -/

/-- C02. The decoder accepts exactly the LEB128 numerals of at most five bytes with a value below
2^32 at the front of the buffer, and returns their value and length. -/
theorem C02_varint_accepts_iff (buf : Bytes) (v n : Nat) :
    decodeVarint buf = .ok (v, n) ↔
      ∃ pre rest, buf = pre ++ rest ∧ Leb128 pre v ∧ pre.length = n ∧ n ≤ 5 ∧ v < 2 ^ 32 :=
  decodeVarint_ok_iff buf v n

/-- C02. Never past the buffer, never more than five bytes, never a value of 2^32 or more. -/
theorem C02_varint_bounds (buf : Bytes) (v n : Nat) (h : decodeVarint buf = .ok (v, n)) :
    1 ≤ n ∧ n ≤ 5 ∧ n ≤ buf.length ∧ v < 2 ^ 32 :=
  decodeVarint_bounds h

/-- C02. The verdict is final: later bytes change neither an acceptance nor an overflow reject. -/
theorem C02_varint_verdict_stable (buf ext : Bytes) :
    (∀ v n, decodeVarint buf = .ok (v, n) → decodeVarint (buf ++ ext) = .ok (v, n)) ∧
      (decodeVarint buf = .error .varintOverflow →
        decodeVarint (buf ++ ext) = .error .varintOverflow) :=
  ⟨fun _ _ h => decodeVarint_append h ext, fun h => decodeVarint_overflow_append h ext⟩

/-- C02. The decoder answers `incomplete` exactly when the buffer is not accepted yet but some
longer input is. -/
theorem C02_varint_incomplete_iff (buf : Bytes) :
    (∃ a b, decodeVarint buf = .error (.incomplete a b)) ↔
      (∀ r, decodeVarint buf ≠ .ok r) ∧ ∃ ext r, decodeVarint (buf ++ ext) = .ok r := by
  constructor
  · rintro ⟨a, b, h⟩
    refine ⟨fun r hr => (by rw [hr] at h; cases h), ?_⟩
    have := decodeVarint_err _ _ h
    rcases this with this | this
    · cases this
    injection this with h1 h2
    subst h1 h2
    have ⟨hc, hl⟩ := (decodeVarint_incomplete_iff _).1 h
    refine ⟨[0], ?_⟩
    have key : ∀ (bs : Bytes), AllCont bs → ∃ v, Leb128 (bs ++ [0]) v ∧ v < 2 ^ (7 * bs.length) := by
      intro bs
      induction bs with
      | nil => intro _; exact ⟨0, .last 0 (by decide), by simp⟩
      | cons c cs ih =>
        intro h1
        obtain ⟨v, hv, hv'⟩ := ih (fun b hb => h1 b (by simp [hb]))
        refine ⟨_, .more c _ v (h1 c (by simp)) hv, ?_⟩
        rw [List.length_cons, show 7 * (cs.length + 1) = 7 * cs.length + 7 by omega, Nat.pow_add]
        have := Nat.mod_lt c.toNat (y := 128) (by omega)
        omega
    obtain ⟨v, hv, hv'⟩ := key buf hc
    have hv32 : v < 2 ^ 32 :=
      Nat.lt_of_lt_of_le hv' (Nat.pow_le_pow_right (by omega) (by omega))
    exact ⟨(v, buf.length + 1), (decodeVarint_ok_iff _ _ _).2
      ⟨buf ++ [0], [], by simp, hv, by simp, by omega, hv32⟩⟩
  · rintro ⟨h1, ext, r, h2⟩
    cases hd : decodeVarint buf with
    | ok r => exact absurd hd (h1 r)
    | error e =>
      rcases decodeVarint_err _ _ hd with he | he
      · subst he
        rw [decodeVarint_overflow_append hd ext] at h2; cases h2
      · subst he; exact ⟨_, _, rfl⟩

example : decodeVarint [0x80, 0x80, 0x80, 0x80, 0x10] = .error .varintOverflow := by decide
example : decodeVarint [0x80, 0x80] = .error (.incomplete 2 3) := by decide

/-! ### C03 plain frames -/

/-- The tag bytes of the wire format. -/
theorem C03_tag_table (b : UInt8) (t : MessageTag) :
    MessageTag.ofByte b = .ok t ↔
      (t, b.toNat) ∈ [(MessageTag.compound, 1), (.ping, 2), (.indirectPing, 3), (.ack, 4),
        (.suspect, 5), (.alive, 6), (.dead, 7), (.pushPull, 8), (.userData, 9), (.nack, 10),
        (.errorResponse, 11), (.encrypted, 13), (.compressed, 14), (.checksumed, 15)] := by
  rw [MessageTag.ofByte_ok_iff, ← UInt8.toNat_inj]
  cases t <;> simp [MessageTag.toByte]

/-- C03. A frame decodes to its own tag and body and consumes exactly itself, whatever follows. -/
theorem C03_frame_roundtrip (tag : MessageTag) (body frame rest : Bytes)
    (h : encodePlainFrame tag body = .ok frame) :
    decodePlainFrame (frame ++ rest) = .ok (tag, body, frame.length) := by
  simp only [encodePlainFrame] at h
  split at h
  · cases h
  · injection h with h
    subst h
    exact decodePlainFrame_plainFrame (m := (tag, body)) (by simp only; omega) rest

/-- C03. Encoding fails exactly for bodies whose length does not fit 32 bits. -/
theorem C03_frame_encodable_iff (tag : MessageTag) (body : Bytes) :
    (∃ frame, encodePlainFrame tag body = .ok frame) ↔ body.length < 2 ^ 32 := by
  simp only [encodePlainFrame]
  split
  · simp; omega
  · simp; omega

/-- C03. The message encoder writes the same frame as the plain-frame encoder, and refuses a body
whose length would wrap instead of emitting a wrong length. -/
theorem C03_message_frame (m : RawMsg) (frame rest : Bytes) (h : encodeFrame m = .ok frame) :
    decodePlainFrame (frame ++ rest) = .ok (m.1, m.2, frame.length) := by
  obtain ⟨h1, h2⟩ := (encodeFrame_ok_iff m frame).1 h
  subst h2
  exact decodePlainFrame_plainFrame h1 rest

/-- C03. What the decoder accepts is exactly one well-formed frame at the front of the buffer. -/
theorem C03_frame_accepts_iff (buf : Bytes) (tag : MessageTag) (body : Bytes) (n : Nat) :
    decodePlainFrame buf = .ok (tag, body, n) ↔
      ∃ frame rest, buf = frame ++ rest ∧ Frame tag.toByte body frame ∧ frame.length = n :=
  decodePlainFrame_ok_iff buf tag body n

/-- C03. An accepted frame never extends past the buffer. -/
theorem C03_frame_in_bounds (buf : Bytes) (tag : MessageTag) (body : Bytes) (n : Nat)
    (h : decodePlainFrame buf = .ok (tag, body, n)) : n ≤ buf.length ∧ body.length < n := by
  obtain ⟨frame, rest, h1, ⟨len, hl, hf⟩, h3⟩ := (decodePlainFrame_ok_iff _ _ _ _).1 h
  subst h1 hf h3
  simp; omega

/-- C03. A non-empty buffer is reported incomplete exactly when it is a strict prefix of a frame. -/
theorem C03_frame_incomplete_iff (buf : Bytes) (hne : buf ≠ []) :
    (∃ a b, decodePlainFrame buf = .error (.incomplete a b)) ↔
      ∃ (tag : MessageTag) (body ext : Bytes), ext ≠ [] ∧ Frame tag.toByte body (buf ++ ext) :=
  decodePlainFrame_incomplete_iff buf hne

example : encodePlainFrame .nack [1, 2] = .ok [10, 2, 1, 2] := by
  simp [encodePlainFrame, encodeVarint, MessageTag.toByte]
example : decodePlainFrame [10, 2, 1, 2, 77] = .ok (.nack, [1, 2], 4) := by decide
example : decodePlainFrame [10, 2, 1] = .error (.incomplete 3 4) := by decide

/-! ### C04 compound packets -/

/-- C04. Splitting a compound packet returns exactly the packed frames, in order, and each of
them decodes to the message that was packed. -/
theorem C04_compound_roundtrip (msgs : List RawMsg) (bytes : Bytes)
    (h : encodeCompound msgs = .ok bytes) :
    ∃ frames, decodeCompound bytes = .ok frames ∧
      frames.map decodePlainFrame =
        (msgs.zip frames).map (fun mf => .ok (mf.1.1, mf.1.2, mf.2.length)) ∧
      frames.map (Except.ok (ε := FrameError)) = msgs.map encodeFrame := by
  obtain ⟨h1, h2, h3, h4⟩ := encodeCompound_ok h
  refine ⟨msgs.map plainFrame, ?_, ?_, ?_⟩
  · rw [decodeCompound_ok_iff]
    refine ⟨by simpa using h1, _, _, ?_, parts_of_frames msgs (fun m hm => (h3 m hm).2), h4⟩
    rw [List.length_map]; exact lenField_encodeVarint h2
  · clear h h1 h2 h4
    induction msgs with
    | nil => rfl
    | cons m ms ih =>
      have hd := decodePlainFrame_plainFrame (h3 m List.mem_cons_self).1 []
      rw [List.append_nil] at hd
      simp only [List.map_cons, List.zip_cons_cons, List.cons.injEq, hd, true_and]
      exact ih (fun m' hm' => h3 m' (List.mem_cons_of_mem _ hm'))
  · rw [List.map_map]
    apply List.map_congr_left
    intro m hm
    exact ((encodeFrame_ok_iff m _).2 ⟨(h3 m hm).1, rfl⟩).symm

/-- C04. Packing succeeds for every list of two or more messages whose frames fit 32 bits. -/
theorem C04_compound_encodable (msgs : List RawMsg) (h2 : 2 ≤ msgs.length)
    (hc : msgs.length < 2 ^ 32)
    (h : ∀ m ∈ msgs, ∀ f, encodeFrame m = .ok f → f.length < 2 ^ 32)
    (he : ∀ m ∈ msgs, ∃ f, encodeFrame m = .ok f) :
    ∃ bytes, encodeCompound msgs = .ok bytes := by
  refine ⟨_, encodeCompound_of_fits h2 hc ?_⟩
  intro m hm
  obtain ⟨f, hf⟩ := he m hm
  have h1 := h m hm f hf
  rw [((encodeFrame_ok_iff m f).1 hf).2] at h1
  exact h1

/-- C04. The splitter accepts exactly the compound packets of the wire grammar with at least two
parts: nothing truncated, nothing trailing. -/
theorem C04_compound_accepts_iff (buf : Bytes) (parts : List Bytes) :
    decodeCompound buf = .ok parts ↔ 2 ≤ parts.length ∧ Compound parts buf :=
  decodeCompound_ok_iff buf parts

/-- C04. The number of parts is at most the number of bytes received (allocation bound), and the
parts together are no longer than the packet. -/
theorem C04_compound_bounded (buf : Bytes) (parts : List Bytes)
    (h : decodeCompound buf = .ok parts) :
    parts.length < buf.length ∧ parts.flatten.length < buf.length := by
  obtain ⟨_, cnt, body, hl, hp, h⟩ := (decodeCompound_ok_iff _ _).1 h
  have h1 := hp.length_le
  have h2 : parts.flatten.length ≤ body.length := hp.flatten_le
  subst h
  simp only [List.length_cons, List.length_append]
  omega

/-- C04. A packet announcing more parts than there are bytes after the count is refused outright, with
the decode error, before any part is read (so no allocation follows an attacker's count). -/
theorem C04_count_guard (cnt body : Bytes) (count : Nat) (hc : LenField cnt count)
    (h : count < 2 ∨ body.length < count) :
    decodeCompound (1 :: (cnt ++ body)) = .error .decode := by
  have hd := decodeVarint_of_lenField hc body
  have ht : MessageTag.ofByte 1 = .ok .compound := by decide
  simp only [decodeCompound, ht, hd, ne_eq, not_true_eq_false, if_false]
  by_cases h2 : count < 2
  · rw [if_pos h2]
  · rw [if_neg h2, if_pos]
    simp only [List.length_cons, List.length_append]
    omega

example : LenField [0x05] 5 ∧ ([0x01, 0x00] : Bytes).length < 5 := by
  refine ⟨⟨.last 5 (by decide), by decide, by decide⟩, by decide⟩

/-- C04. No accepted packet is a strict prefix of another accepted packet: a datagram with bytes
appended to a valid compound is rejected. -/
theorem C04_compound_no_trailing (buf ext : Bytes) (p q : List Bytes)
    (h1 : decodeCompound buf = .ok p) (h2 : decodeCompound (buf ++ ext) = .ok q) : ext = [] := by
  obtain ⟨_, c1, b1, l1, p1, e1⟩ := (decodeCompound_ok_iff _ _).1 h1
  obtain ⟨_, c2, b2, l2, p2, e2⟩ := (decodeCompound_ok_iff _ _).1 h2
  subst e1
  simp only [List.cons_append, List.cons.injEq, true_and, List.append_assoc] at e2
  have d1 := decodeVarint_of_lenField l1 (b1 ++ ext)
  have d2 := decodeVarint_of_lenField l2 b2
  rw [e2, d2] at d1
  injection d1 with d1; injection d1 with hlen hcl
  have hc : c1 = c2 ∧ b1 ++ ext = b2 := by
    have := List.append_inj e2 hcl.symm
    exact this
  obtain ⟨rfl, rfl⟩ := hc
  exact p1.no_trailing p2 hlen

example : encodeCompound [(.nack, [1]), (.nack, [])] = .ok [1, 2, 3, 10, 1, 1, 2, 10, 0] := by
  simp [encodeCompound, compoundSizes, compoundWrite, encodeVarint, varintLen, MessageTag.toByte]
example : decodeCompound [1, 2, 3, 10, 1, 1, 2, 10, 0] = .ok [[10, 1, 1], [10, 0]] := by decide
example : decodeCompound [1, 1, 2, 10, 0] = .error .decode := by decide
example : decodeCompound [1, 2, 2, 10, 0, 2, 10, 0, 9] = .error .decode := by decide

end Verif.Props
