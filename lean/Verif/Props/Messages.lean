import Verif.Proof.Required2
import Verif.Proof.Addr
import Verif.Props.Label
import Verif.Props.Addr
import Verif.Model.DataCodecs
/-
Properties C05-C06: typed messages on the wire.
Specification: `Verif.Spec.Messages`. `LawfulData` is the assumption on the id and address types (they
round-trip themselves); `C05_string_ids_lawful` and `C05_socket_addrs_lawful` discharge it for the
shipped types. `MessageWF` is what the Rust field types guarantee.
-/
namespace Verif.Props
open Verif Verif.Spec

variable {I A : Type} {CI : DataCodec I} {CA : DataCodec A}

/-! ### C05 typed message round-trip -/

/-- C05. Every message decodes from its own encoding to an equal message. -/
theorem C05_roundtrip (LI : LawfulData CI) (LA : LawfulData CA) (m : Message I A) (b : Bytes)
    (hw : MessageWF m) (h : encodeTyped CI CA m = .ok b) : parseMessage CI CA b = .ok m := by
  unfold encodeTyped encodeMessage at h
  cases h1 : messageToAny CI CA m with
  | error e => simp [h1] at h
  | ok a =>
    simp only [h1] at h
    cases h2 : encodeFrame (a.tag, a.body) with
    | error e => simp [h2] at h
    | ok b' =>
      simp only [h2, Except.ok.injEq] at h
      subst h
      obtain ⟨hs, rfl⟩ := (encodeFrame_ok_iff _ _).1 h2
      exact parse_plainFrame LI LA hw h1 hs

/-- C05. Encoding fails only when an id or address refuses to encode or the body reaches 2^32 bytes. -/
theorem C05_encode_total (m : Message I A) :
    (∃ b, encodeTyped CI CA m = .ok b) ↔
      ∃ a, messageToAny CI CA m = .ok a ∧ a.body.length < 2 ^ 32 := by
  unfold encodeTyped encodeMessage
  cases h1 : messageToAny CI CA m with
  | error e => simp
  | ok a =>
    simp only [Except.ok.injEq, exists_eq_left']
    constructor
    · rintro ⟨b, h⟩
      cases h2 : encodeFrame (a.tag, a.body) with
      | error e => simp [h2] at h
      | ok b' => exact ((encodeFrame_ok_iff _ _).1 h2).1
    · intro hs
      refine ⟨plainFrame (a.tag, a.body), ?_⟩
      rw [(encodeFrame_ok_iff (a.tag, a.body) _).2 ⟨hs, rfl⟩]

theorem tag_ne_compound (a : AnyMessage) : a.tag.toByte ≠ MessageTag.compound.toByte := by
  cases a <;> simp only [AnyMessage.tag] <;> decide

theorem plainFrame_head (m : RawMsg) : (plainFrame m).head? = some m.1.toByte := by
  simp [plainFrame]

/-- C05. A single message also decodes through the packet parser. -/
theorem C05_packet_roundtrip (LI : LawfulData CI) (LA : LawfulData CA) (m : Message I A) (b : Bytes)
    (hw : MessageWF m) (h : encodeTyped CI CA m = .ok b) : parseMessages CI CA b = .ok [m] := by
  have hp := C05_roundtrip LI LA m b hw h
  unfold encodeTyped encodeMessage at h
  cases h1 : messageToAny CI CA m with
  | error e => simp [h1] at h
  | ok a =>
    simp only [h1] at h
    cases h2 : encodeFrame (a.tag, a.body) with
    | error e => simp [h2] at h
    | ok b' =>
      simp only [h2, Except.ok.injEq] at h
      subst h
      obtain ⟨hs, rfl⟩ := (encodeFrame_ok_iff _ _).1 h2
      unfold parseMessages
      rw [if_neg (by rw [plainFrame_head]; simpa using tag_ne_compound a), hp]

theorem compound_roundtrip (LI : LawfulData CI) (LA : LawfulData CA) (ms : List (Message I A))
    (b : Bytes) (hw : ∀ m ∈ ms, MessageWF m) (h : encodeTypedCompound CI CA ms = .ok b) :
    parseMessages CI CA b = .ok ms ∧ b.head? = some 1 := by
  unfold encodeTypedCompound at h
  cases h1 : toAnys CI CA ms with
  | error e => simp [h1] at h
  | ok as =>
    simp only [h1] at h
    cases h2 : encodeCompound (as.map (fun a => (a.tag, a.body))) with
    | error e => simp [h2] at h
    | ok b' =>
      simp only [h2, Except.ok.injEq] at h
      subst h
      obtain ⟨e1, e2, e3, e4⟩ := encodeCompound_ok h2
      have hd : decodeCompound b' =
          .ok ((as.map (fun a => (a.tag, a.body))).map plainFrame) := by
        rw [decodeCompound_ok_iff]
        refine ⟨by simpa using e1, _, _, ?_, parts_of_frames _ (fun m hm => (e3 m hm).2), e4⟩
        simpa using lenField_encodeVarint e2
      have hh : b'.head? = some 1 := by rw [e4]; rfl
      refine ⟨?_, hh⟩
      unfold parseMessages
      rw [if_pos (by rw [hh]; rfl), hd]
      simp only [List.map_map]
      refine parseParts_anys LI LA h1 hw ?_
      intro a ha
      exact (e3 (a.tag, a.body) (List.mem_map.2 ⟨a, ha, rfl⟩)).1

/-- C05. A compound packet decodes to the same messages in the same order. -/
theorem C05_compound_roundtrip (LI : LawfulData CI) (LA : LawfulData CA) (ms : List (Message I A))
    (b : Bytes) (hw : ∀ m ∈ ms, MessageWF m) (h : encodeTypedCompound CI CA ms = .ok b) :
    parseMessages CI CA b = .ok ms :=
  (compound_roundtrip LI LA ms b hw h).1

theorem encodeTyped_head {m : Message I A} {b : Bytes} (h : encodeTyped CI CA m = .ok b) :
    ∃ a : AnyMessage, b.head? = some a.tag.toByte := by
  unfold encodeTyped encodeMessage at h
  cases h1 : messageToAny CI CA m with
  | error e => simp [h1] at h
  | ok a =>
    simp only [h1] at h
    cases h2 : encodeFrame (a.tag, a.body) with
    | error e => simp [h2] at h
    | ok b' =>
      simp only [h2, Except.ok.injEq] at h
      subst h
      obtain ⟨hs, rfl⟩ := (encodeFrame_ok_iff _ _).1 h2
      exact ⟨a, plainFrame_head _⟩

/-- C05. End to end between two nodes of one cluster: the labelled datagram of a message is received
as exactly that message. -/
theorem C05_datagram (LI : LawfulData CI) (LA : LawfulData CA) (label : Option Bytes)
    (m : Message I A) (d : Bytes) (hw : MessageWF m) (h : encodeOutgoing CI CA label m = .ok d) :
    receiveDatagram CI CA label d = .ok [m] := by
  unfold encodeOutgoing at h
  cases h1 : encodeTyped CI CA m with
  | error e => simp [h1] at h
  | ok b =>
    simp only [h1] at h
    cases h2 : wrapLabel b label with
    | error e => simp [h2] at h
    | ok w =>
      simp only [h2, Except.ok.injEq] at h
      subst h
      obtain ⟨a, ha⟩ := encodeTyped_head h1
      have hne : b ≠ [] := by intro hb; subst hb; simp at ha
      have ht : b.head? ≠ some 12 := by rw [ha]; cases a <;> simp only [AnyMessage.tag] <;> decide
      unfold receiveDatagram
      rw [C07_wrap_roundtrip b label w hne ht h2]
      exact C05_packet_roundtrip LI LA m b hw h1

/-- C05. The same for a compound datagram. -/
theorem C05_datagram_compound (LI : LawfulData CI) (LA : LawfulData CA) (label : Option Bytes)
    (ms : List (Message I A)) (d : Bytes) (hw : ∀ m ∈ ms, MessageWF m)
    (h : encodeOutgoingCompound CI CA label ms = .ok d) :
    receiveDatagram CI CA label d = .ok ms := by
  unfold encodeOutgoingCompound at h
  cases h1 : encodeTypedCompound CI CA ms with
  | error e => simp [h1] at h
  | ok b =>
    simp only [h1] at h
    cases h2 : wrapLabel b label with
    | error e => simp [h2] at h
    | ok w =>
      simp only [h2, Except.ok.injEq] at h
      subst h
      obtain ⟨hp, hh⟩ := compound_roundtrip LI LA ms b hw h1
      have hne : b ≠ [] := by intro hb; subst hb; simp at hh
      have ht : b.head? ≠ some 12 := by rw [hh]; decide
      unfold receiveDatagram
      rw [C07_wrap_roundtrip b label w hne ht h2]
      exact hp

/-- C05. String ids satisfy the assumption. -/
theorem C05_string_ids_lawful : LawfulData stringCodec := by
  refine ⟨fun v b h => ?_⟩
  obtain ⟨v, hv⟩ := v
  simp only [stringCodec] at h
  split at h
  · rename_i he
    injection h with h
    subst h
    subst he
    rfl
  · split at h
    · simp at h
    · injection h with h
      subst h
      simp [stringCodec, hv]

/-- C05. Socket addresses satisfy the assumption. -/
theorem C05_socket_addrs_lawful : LawfulData addrCodec := by
  refine ⟨fun a b h => ?_⟩
  have h1 := (C13_codecs_agree.2 b a).2 (C13_roundtrip a b ((C13_codecs_agree.1 a b).1 h))
  unfold dataFromBytesAddr at h1
  simp only [addrCodec]
  cases hd : dataDecodeAddr b with
  | error e => simp [hd] at h1
  | ok r =>
    obtain ⟨n, a'⟩ := r
    simp only [hd] at h1
    split at h1
    · simp at h1
    · rename_i hn
      injection h1 with h1
      subst h1
      have : n = b.length := by omega
      simp [this]

/-- A concrete alive message with metadata, an unknown version byte and a real address. -/
def exAlive : Message RStr SocketAddr :=
  .alive (Alive.mk 70000 [1, 2, 3] (TNode.mk ⟨[0x6e, 0x31], by decide⟩ (.v4 ⟨[10, 0, 0, 1], rfl⟩ 7946))
    (.unknown 0) .v1)

example : MessageWF exAlive := by decide
example : (encodeTyped stringCodec addrCodec exAlive).isOk = true := by
  simp [exAlive, encodeTyped, messageToAny, aliveToPb, nodeToPb, dataToBytes, stringCodec, addrCodec,
    dataEncodeAddr, bind, Except.bind, pure, Except.pure, Except.map, encodeMessage, encodeFrame,
    AnyMessage.body, AnyMessage.toFields, PbAlive.toFields, PbNode.toFields, optU32, impLen, optLen,
    encodeFields, encodeField, Version.toByte, portBytes, AnyMessage.tag, encodeVarint, Except.isOk,
    Except.toBool]

/-- The canonical-byte hypothesis is needed: a hand-made `Unknown` carrying a named byte comes back as
the named value. -/
example : NState.ofByte (NState.unknown 2).toByte = .dead ∧
    Version.ofByte (Version.unknown 1).toByte = .v1 := by decide

/-! ### C06 required fields -/

/-- C06. Every accepted message means exactly what the fields of its body say: required fields present,
ids and addresses decoded completely, metadata within its limit, versions and states one byte, an
omitted version read as V1 and an explicit zero kept as an unknown version. -/
theorem C06_meaning (buf : Bytes) (m : Message I A) (h : parseMessage CI CA buf = .ok m) :
    ∃ tag body fs, Frame tag.toByte body buf ∧ pbFields body = some fs ∧
      MeansFields CI CA tag fs m := by
  obtain ⟨tag, body, fs, a, h1, h2, h3, h4⟩ := parseMessage_ok h
  exact ⟨tag, body, fs, h1, h2, means_of_accept h3 h4⟩

theorem frame_unique {t1 t2 : UInt8} {b1 b2 buf : Bytes} (h1 : Frame t1 b1 buf) (h2 : Frame t2 b2 buf) :
    t1 = t2 ∧ b1 = b2 := by
  obtain ⟨l1, hl1, e1⟩ := h1
  obtain ⟨l2, hl2, e2⟩ := h2
  rw [e1] at e2
  injection e2 with e3 e4
  have d1 := decodeVarint_of_lenField hl1 b1
  have d2 := decodeVarint_of_lenField hl2 b2
  rw [e4, d2] at d1
  injection d1 with d1
  injection d1 with hv hl
  have := List.append_inj e4 hl.symm
  exact ⟨e3, this.2⟩

theorem tag_toByte_inj {a b : MessageTag} (h : a.toByte = b.toByte) : a = b := by
  revert h; revert a b
  intro a b
  cases a <;> cases b <;> simp [MessageTag.toByte]

/-- C06. A framed body with a required field missing is rejected with an error, whatever else it
holds. -/
theorem C06_missing_rejected (buf body : Bytes) (tag : MessageTag) (fs : List Field)
    (hf : Frame tag.toByte body buf) (hb : pbFields body = some fs) (hm : ¬ RequiredPresent tag fs) :
    ∃ e, parseMessage CI CA buf = .error e := by
  cases h : parseMessage CI CA buf with
  | error e => exact ⟨e, rfl⟩
  | ok m =>
    obtain ⟨tag', body', fs', a, h1, h2, h3, h4⟩ := parseMessage_ok h
    obtain ⟨ht, rfl⟩ := frame_unique hf h1
    have : tag = tag' := tag_toByte_inj ht
    subst this
    rw [hb] at h2
    injection h2 with h2
    subst h2
    exact absurd (required_of_means (means_of_accept h3 h4)) hm

/-- C06. A version wider than one byte is rejected, on alive messages and on pushed states. -/
theorem C06_wide_version_rejected (buf body : Bytes) (fs : List Field) (n w : Nat)
    (hf : Frame MessageTag.alive.toByte body buf) (hb : pbFields body = some fs) (hn : n = 4 ∨ n = 5)
    (hv : lastVarint fs n = some w) (hw : 255 < w % 2 ^ 32) :
    ∃ e, parseMessage CI CA buf = .error e := by
  cases h : parseMessage CI CA buf with
  | error e => exact ⟨e, rfl⟩
  | ok m =>
    obtain ⟨tag', body', fs', h1, h2, h3⟩ := C06_meaning buf m h
    obtain ⟨ht, rfl⟩ := frame_unique hf h1
    have : MessageTag.alive = tag' := tag_toByte_inj ht
    subst this
    rw [hb] at h2
    injection h2 with h2
    subst h2
    cases m <;> simp only [MeansFields] at h3
    obtain ⟨_, _, _, hp, hd⟩ := h3
    have key : ∀ v, VersionIs fs n v → False := by
      rintro v (⟨h, _⟩ | ⟨w', h, h', _⟩)
      · rw [hv] at h; simp at h
      · rw [hv] at h; injection h with h; omega
    rcases hn with rfl | rfl
    · exact absurd (key _ hp) id
    · exact absurd (key _ hd) id

/-- C06. A pushed state with a state or version field wider than one byte makes the whole push/pull
rejected. -/
theorem C06_wide_state_rejected (buf body el : Bytes) (fs gs : List Field) (n w : Nat)
    (hf : Frame MessageTag.pushPull.toByte body buf) (hb : pbFields body = some fs)
    (he : el ∈ elements fs 2) (hg : pbFields el = some gs) (hn : n = 5 ∨ n = 6 ∨ n = 7)
    (hv : lastVarint gs n = some w) (hw : 255 < w % 2 ^ 32) :
    ∃ e, parseMessage CI CA buf = .error e := by
  cases h : parseMessage CI CA buf with
  | error e => exact ⟨e, rfl⟩
  | ok m =>
    obtain ⟨tag', body', fs', h1, h2, h3⟩ := C06_meaning buf m h
    obtain ⟨ht, rfl⟩ := frame_unique hf h1
    have : MessageTag.pushPull = tag' := tag_toByte_inj ht
    subst this
    rw [hb] at h2
    injection h2 with h2
    subst h2
    cases m <;> simp only [MeansFields] at h3
    have key : ∀ v, VersionIs gs n v → False := by
      rintro v (⟨h, _⟩ | ⟨w', h, h', _⟩)
      · rw [hv] at h; simp at h
      · rw [hv] at h; injection h with h; omega
    have := forall₂_left (P := fun b => ∀ gs, pbFields b = some gs →
        ∃ s : PushNodeState I A, PushStateIs CI CA gs s)
      (by rintro b s ⟨gs, h1, h2⟩ gs' h3; rw [h1] at h3; injection h3 with h3; subst h3; exact ⟨s, h2⟩)
      h3.2.2 el he gs hg
    obtain ⟨s, _, _, _, _, ⟨w', hs, hw', _⟩, hp, hd⟩ := this
    rcases hn with rfl | rfl | rfl
    · rw [hv] at hs; injection hs with hs; omega
    · exact absurd (key _ hp) id
    · exact absurd (key _ hd) id

/-- C06. On the wire struct: an omitted version is V1, an explicit zero is not. -/
theorem C06_omitted_version : versioned none = .ok .v1 ∧ versioned (some 0) = .ok (.unknown 0) := by
  decide

/-- A suspect body with no `from` field: parses as protobuf, misses a required field. -/
example : pbFields [0x08, 0x01, 0x12, 0x01, 0x61] =
    some [(1, .varint 1), (2, .len [0x61])] ∧
    ¬ RequiredPresent .suspect [(1, .varint 1), (2, .len [0x61])] := by
  refine ⟨by decide, ?_⟩
  simp [RequiredPresent, HasBytes, HasVarint]

/-- An alive body whose version field holds 300. -/
example : lastVarint [(1, .varint 1), (4, .varint 300)] 4 = some 300 := by decide

end Verif.Props
