import Verif.Model.Proto
import Verif.Proof.Framing
/-
Helper lemmas for the protobuf wire format: fields, then each message.
-/
namespace Verif
open Spec

theorem pbVarint_leb {pre : Bytes} {v : Nat} (h : Leb128 pre v) :
    ∀ (f : Nat) (rest : Bytes), pre.length ≤ f + 1 → pbVarint f (pre ++ rest) = some (v, rest) := by
  induction h with
  | last b hb =>
    intro f rest _
    cases f <;> simp [pbVarint, hb]
  | more b bs v hb t ih =>
    intro f rest hl
    have hp := t.length_pos
    cases f with
    | zero => rw [List.length_cons] at hl; omega
    | succ f =>
      simp only [List.cons_append, pbVarint]
      rw [if_neg (by omega), ih f rest (by simpa using hl)]

theorem pbVarint64_encode (v : Nat) (h : v < 2 ^ 64) (rest : Bytes) :
    pbVarint64 (encodeVarint v ++ rest) = some (v, rest) := by
  have hl : (encodeVarint v).length ≤ 9 + 1 := by
    rw [encodeVarint_length]
    exact varintLen_le_of_lt 9 v (Nat.lt_of_lt_of_le h (Nat.pow_le_pow_right (by omega) (by omega)))
  simp only [pbVarint64, pbVarint_leb (encodeVarint_leb128 v) 9 rest hl, if_pos h]

theorem encodeVarint_pos (v : Nat) : 0 < (encodeVarint v).length := by
  rw [encodeVarint_length]; exact varintLen_pos v

/-- A field the encoder can write and the decoder reads back. -/
def FieldWF : Field → Prop
  | (n, .varint v) => 1 ≤ n ∧ n < 2 ^ 29 ∧ v < 2 ^ 64
  | (n, .i64 b) => 1 ≤ n ∧ n < 2 ^ 29 ∧ b.length = 8
  | (n, .len b) => 1 ≤ n ∧ n < 2 ^ 29 ∧ b.length < 2 ^ 64
  | (n, .i32 b) => 1 ≤ n ∧ n < 2 ^ 29 ∧ b.length = 4

theorem pbField_key (n w : Nat) (hw : w < 8) (h1 : 1 ≤ n) (h2 : n < 2 ^ 29) (rest : Bytes) :
    pbField (encodeVarint (n * 8 + w) ++ rest) = (pbValue w rest).map (fun p => ((n, p.1), p.2)) := by
  have hk : n * 8 + w < 2 ^ 32 := by omega
  simp only [pbField, pbVarint64_encode (n * 8 + w) (by omega) rest]
  have e1 : (n * 8 + w) / 8 = n := by omega
  have e2 : (n * 8 + w) % 8 = w := by omega
  rw [e1, e2, if_neg (by omega)]

theorem pbField_encode (f : Field) (h : FieldWF f) (rest : Bytes) :
    pbField (encodeField f ++ rest) = some (f, rest) := by
  obtain ⟨n, v⟩ := f
  cases v with
  | varint v =>
    obtain ⟨h1, h2, h3⟩ := h
    simp only [encodeField, List.append_assoc]
    rw [show n * 8 = n * 8 + 0 from rfl, pbField_key n 0 (by omega) h1 h2]
    simp [pbValue, pbVarint64_encode v h3]
  | i64 b =>
    obtain ⟨h1, h2, h3⟩ := h
    simp only [encodeField, List.append_assoc]
    rw [pbField_key n 1 (by omega) h1 h2]
    simp only [pbValue, List.length_append]
    rw [if_neg (by omega), if_pos trivial, if_neg (by omega), List.take_append_of_le_length (by omega),
      List.take_of_length_le (by omega), List.drop_append_of_le_length (by omega),
      List.drop_of_length_le (by omega)]
    rfl
  | len b =>
    obtain ⟨h1, h2, h3⟩ := h
    simp only [encodeField, List.append_assoc]
    rw [pbField_key n 2 (by omega) h1 h2]
    simp [pbValue, pbVarint64_encode b.length h3]
  | i32 b =>
    obtain ⟨h1, h2, h3⟩ := h
    simp only [encodeField, List.append_assoc]
    rw [pbField_key n 5 (by omega) h1 h2]
    simp only [pbValue, List.length_append]
    rw [if_neg (by omega), if_neg (by omega), if_neg (by omega), if_pos trivial, if_neg (by omega),
      List.take_append_of_le_length (by omega),
      List.take_of_length_le (by omega), List.drop_append_of_le_length (by omega),
      List.drop_of_length_le (by omega)]
    rfl

theorem encodeField_pos (f : Field) : 0 < (encodeField f).length := by
  obtain ⟨n, v⟩ := f
  cases v <;> simp only [encodeField, List.length_append] <;>
    first
    | (have := encodeVarint_pos (n * 8); omega)
    | (have := encodeVarint_pos (n * 8 + 1); omega)
    | (have := encodeVarint_pos (n * 8 + 2); omega)
    | (have := encodeVarint_pos (n * 8 + 5); omega)

theorem pbFieldsLoop_encode (fs : List Field) : ∀ fuel, (∀ f ∈ fs, FieldWF f) →
    (encodeFields fs).length ≤ fuel → pbFieldsLoop fuel (encodeFields fs) = some fs := by
  induction fs with
  | nil => intro fuel _ _; cases fuel <;> simp [encodeFields, pbFieldsLoop]
  | cons f fs ih =>
    intro fuel hwf hl
    have hp := encodeField_pos f
    have e : encodeFields (f :: fs) = encodeField f ++ encodeFields fs := rfl
    rw [e] at hl ⊢
    rw [List.length_append] at hl
    cases fuel with
    | zero => omega
    | succ fuel =>
      have hne : encodeField f ++ encodeFields fs ≠ [] := by
        intro h
        have := congrArg List.length h
        rw [List.length_append, List.length_nil] at this
        omega
      have step : pbFieldsLoop (fuel + 1) (encodeField f ++ encodeFields fs) =
          match pbField (encodeField f ++ encodeFields fs) with
          | none => none
          | some (fl, rest) => (pbFieldsLoop fuel rest).map (fl :: ·) := by
        cases hx : encodeField f ++ encodeFields fs with
        | nil => exact absurd hx hne
        | cons a t => rfl
      rw [step, pbField_encode f (hwf f (by simp))]
      simp only
      rw [ih fuel (fun g hg => hwf g (by simp [hg])) (by omega)]
      rfl

theorem pbFields_encode (fs : List Field) (h : ∀ f ∈ fs, FieldWF f) :
    pbFields (encodeFields fs) = some fs :=
  pbFieldsLoop_encode fs _ h (Nat.le_refl _)

/-- The size of a length-delimited field is at most that of the encoding. -/
theorem len_le_encode {fs : List Field} {n : Nat} {b : Bytes} (h : (n, WireVal.len b) ∈ fs) :
    b.length ≤ (encodeFields fs).length := by
  induction fs with
  | nil => simp at h
  | cons f fs ih =>
    have e : encodeFields (f :: fs) = encodeField f ++ encodeFields fs := rfl
    rw [e, List.length_append]
    rcases List.mem_cons.1 h with rfl | h
    · simp only [encodeField, List.length_append]; omega
    · have := ih h; omega

/-- Fields with small numbers and values, before the size of the whole is known. -/
def FieldPre : Field → Prop
  | (n, .varint v) => 1 ≤ n ∧ n < 2 ^ 29 ∧ v < 2 ^ 64
  | (n, .len _) => 1 ≤ n ∧ n < 2 ^ 29
  | _ => False

theorem pbFields_of_pre (fs : List Field) (h : ∀ f ∈ fs, FieldPre f)
    (hs : (encodeFields fs).length < 2 ^ 32) : pbFields (encodeFields fs) = some fs := by
  apply pbFields_encode
  intro f hf
  have hp := h f hf
  obtain ⟨n, v⟩ := f
  cases v with
  | varint v => exact hp
  | len b =>
    have := len_le_encode hf
    exact ⟨hp.1, hp.2, by omega⟩
  | i64 b => exact absurd hp (by simp [FieldPre])
  | i32 b => exact absurd hp (by simp [FieldPre])

theorem asU32_of_lt {v : Nat} (h : v < 2 ^ 32) : asU32 v = v := Nat.mod_eq_of_lt h

theorem pbNode_merge (i a : Bytes)
    (hs : (encodeFields (PbNode.toFields { id := some i, addr := some a })).length < 2 ^ 32) :
    PbNode.merge none (encodeFields (PbNode.toFields { id := some i, addr := some a })) =
      some { id := some i, addr := some a } := by
  have hf : pbFields (encodeFields (PbNode.toFields { id := some i, addr := some a })) =
      some (PbNode.toFields { id := some i, addr := some a }) := by
    apply pbFields_of_pre _ _ hs
    intro f hf
    simp only [PbNode.toFields, optLen, List.cons_append, List.nil_append, List.mem_cons,
      List.not_mem_nil, or_false] at hf
    rcases hf with rfl | rfl <;> simp [FieldPre]
  simp only [PbNode.merge, hf]
  simp [PbNode.toFields, optLen, PbNode.step]

theorem impLen_mem {n : Nat} {b : Bytes} {f : Field} (h : f ∈ impLen n b) : f = (n, .len b) := by
  unfold impLen at h
  split at h
  · simp at h
  · simpa using h

theorem asI32_byte (b : UInt8) : asI32 (i32Wire (b.toNat : Int)) = (b.toNat : Int) := by
  have := b.toNat_lt
  have e : i32Wire (b.toNat : Int) = b.toNat := by
    unfold i32Wire
    rw [if_neg (by omega)]
    simp
  rw [e]
  unfold asI32
  have : b.toNat % 2 ^ 32 = b.toNat := Nat.mod_eq_of_lt (by omega)
  rw [this, if_pos (by omega)]

theorem pushNodeState_fields (i a m : Bytes) (inc : Nat) (st pv dv : UInt8) (hinc : inc < 2 ^ 32) :
    (PbPushNodeState.toFields
      { id := some i, addr := some a, metadata := m, incarnation := some inc,
        state := some (st.toNat : Int), pv := some pv.toNat, dv := some dv.toNat }).foldlM
      PbPushNodeState.step {} =
    some { id := some i, addr := some a, metadata := m, incarnation := some inc,
           state := some (st.toNat : Int), pv := some pv.toNat, dv := some dv.toNat } := by
  have h1 := pv.toNat_lt
  have h2 := dv.toNat_lt
  have e1 : asU32 pv.toNat = pv.toNat := asU32_of_lt (by omega)
  have e2 : asU32 dv.toNat = dv.toNat := asU32_of_lt (by omega)
  by_cases hm : m = []
  · subst hm
    simp [PbPushNodeState.toFields, optLen, optU32, impLen, PbPushNodeState.step, asU32_of_lt hinc, e1,
      e2, asI32_byte]
  · simp [PbPushNodeState.toFields, optLen, optU32, impLen, PbPushNodeState.step, asU32_of_lt hinc, e1,
      e2, asI32_byte, hm]

theorem pushNodeState_decode (i a m : Bytes) (inc : Nat) (st pv dv : UInt8) (hinc : inc < 2 ^ 32)
    (hs : (encodeFields (PbPushNodeState.toFields
      { id := some i, addr := some a, metadata := m, incarnation := some inc,
        state := some (st.toNat : Int), pv := some pv.toNat, dv := some dv.toNat })).length < 2 ^ 32) :
    PbPushNodeState.decode (encodeFields (PbPushNodeState.toFields
      { id := some i, addr := some a, metadata := m, incarnation := some inc,
        state := some (st.toNat : Int), pv := some pv.toNat, dv := some dv.toNat })) =
    some { id := some i, addr := some a, metadata := m, incarnation := some inc,
           state := some (st.toNat : Int), pv := some pv.toNat, dv := some dv.toNat } := by
  have hst := st.toNat_lt
  have h1 := pv.toNat_lt
  have h2 := dv.toNat_lt
  unfold PbPushNodeState.decode
  rw [pbFields_of_pre _ _ hs]
  · exact pushNodeState_fields i a m inc st pv dv hinc
  · intro f hf
    simp only [PbPushNodeState.toFields, optLen, optU32, Option.map_some, List.mem_append,
      List.mem_cons, List.not_mem_nil, or_false] at hf
    rcases hf with (((((rfl | rfl) | hf) | rfl) | rfl) | rfl) | rfl
    · simp [FieldPre]
    · simp [FieldPre]
    · rw [impLen_mem hf]; simp [FieldPre]
    · exact ⟨by omega, by omega, by omega⟩
    · refine ⟨by omega, by omega, ?_⟩
      unfold i32Wire
      rw [if_neg (by omega)]
      simp; omega
    · exact ⟨by omega, by omega, by omega⟩
    · exact ⟨by omega, by omega, by omega⟩

theorem alive_fields (inc : Nat) (m i a : Bytes) (pv dv : UInt8) (hinc : inc < 2 ^ 32)
    (hn : (encodeFields (PbNode.toFields { id := some i, addr := some a })).length < 2 ^ 32) :
    (PbAlive.toFields
      { incarnation := some inc, metadata := m, node := some { id := some i, addr := some a },
        pv := some pv.toNat, dv := some dv.toNat }).foldlM PbAlive.step {} =
    some { incarnation := some inc, metadata := m, node := some { id := some i, addr := some a },
           pv := some pv.toNat, dv := some dv.toNat } := by
  have h1 := pv.toNat_lt
  have h2 := dv.toNat_lt
  have e1 : asU32 pv.toNat = pv.toNat := asU32_of_lt (by omega)
  have e2 : asU32 dv.toNat = dv.toNat := asU32_of_lt (by omega)
  by_cases hm : m = []
  · subst hm
    simp [PbAlive.toFields, optLen, optU32, impLen, PbAlive.step, asU32_of_lt hinc, e1, e2,
      pbNode_merge i a hn]
  · simp [PbAlive.toFields, optLen, optU32, impLen, PbAlive.step, asU32_of_lt hinc, e1, e2,
      pbNode_merge i a hn, hm]

theorem ping_fields (seq : Nat) (i a i' a' : Bytes) (hseq : seq < 2 ^ 32)
    (hn : (encodeFields (PbNode.toFields { id := some i, addr := some a })).length < 2 ^ 32)
    (hn' : (encodeFields (PbNode.toFields { id := some i', addr := some a' })).length < 2 ^ 32) :
    (PbPing.toFields
      { seq := some seq, source := some { id := some i, addr := some a },
        target := some { id := some i', addr := some a' } }).foldlM PbPing.step {} =
    some { seq := some seq, source := some { id := some i, addr := some a },
           target := some { id := some i', addr := some a' } } := by
  simp [PbPing.toFields, optLen, optU32, PbPing.step, asU32_of_lt hseq, pbNode_merge i a hn,
    pbNode_merge i' a' hn']

theorem bad_fields (inc : Nat) (n s : Bytes) (hinc : inc < 2 ^ 32) :
    (PbBad.toFields { incarnation := some inc, node := some n, src := some s }).foldlM PbBad.step {} =
    some { incarnation := some inc, node := some n, src := some s } := by
  simp [PbBad.toFields, optLen, optU32, PbBad.step, asU32_of_lt hinc]

theorem ack_fields (seq : Nat) (p : Bytes) (h : seq < 2 ^ 32) :
    (PbAck.toFields { seq := seq, payload := p }).foldlM PbAck.step {} =
      some { seq := seq, payload := p } := by
  by_cases h0 : seq = 0 <;> by_cases hp : p = [] <;>
    simp [PbAck.toFields, impU32, impLen, PbAck.step, h0, hp, asU32_of_lt h]

theorem nack_fields (seq : Nat) (h : seq < 2 ^ 32) :
    (PbNack.toFields { seq := seq }).foldlM PbNack.step {} = some { seq := seq } := by
  by_cases h0 : seq = 0 <;> simp [PbNack.toFields, impU32, PbNack.step, h0, asU32_of_lt h]

theorem userData_fields (d : Bytes) :
    (PbUserData.toFields { data := d }).foldlM PbUserData.step {} = some { data := d } := by
  by_cases h0 : d = [] <;> simp [PbUserData.toFields, impLen, PbUserData.step, h0]

theorem error_fields (d : Bytes) (h : isUtf8 d = true) :
    (PbErrorResponse.toFields { error := d }).foldlM PbErrorResponse.step {} =
      some { error := d } := by
  by_cases h0 : d = [] <;> simp [PbErrorResponse.toFields, impLen, PbErrorResponse.step, h0, h]

theorem states_fold (ss : List PbPushNodeState)
    (h : ∀ s ∈ ss, PbPushNodeState.decode (encodeFields s.toFields) = some s) :
    ∀ m : PbPushPull,
      (ss.map (fun s => ((2, .len (encodeFields s.toFields)) : Field))).foldlM PbPushPull.step m =
        some { m with states := m.states ++ ss } := by
  induction ss with
  | nil => intro m; simp
  | cons s ss ih =>
    intro m
    simp only [List.map_cons, List.foldlM_cons, PbPushPull.step, h s (by simp), Option.map_some,
      Option.bind_eq_bind, Option.bind_some]
    rw [ih (fun t ht => h t (by simp [ht]))]
    simp

theorem pushPull_fields (join : Bool) (ss : List PbPushNodeState) (u : Bytes)
    (h : ∀ s ∈ ss, PbPushNodeState.decode (encodeFields s.toFields) = some s) :
    (PbPushPull.toFields { join := join, states := ss, userData := u }).foldlM PbPushPull.step {} =
      some { join := join, states := ss, userData := u } := by
  simp only [PbPushPull.toFields, List.foldlM_append]
  have hj : (if join = true then [((1, WireVal.varint 1) : Field)] else []).foldlM PbPushPull.step {} =
      some { join := join, states := [], userData := [] } := by
    cases join <;> simp [PbPushPull.step]
  rw [hj]
  simp only [Option.bind_eq_bind, Option.bind_some]
  rw [states_fold ss h]
  by_cases hu : u = [] <;> simp [impLen, hu, PbPushPull.step]

end Verif
