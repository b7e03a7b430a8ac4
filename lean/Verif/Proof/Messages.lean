import Verif.Proof.Proto
import Verif.Spec.Messages
import Verif.Proof.Label
namespace Verif
open Spec

theorem data_roundtrip {T : Type} {C : DataCodec T} (L : LawfulData C) {v : T} {b : Bytes}
    (h : dataToBytes C v = .ok b) : dataFromBytes C b = .ok v := by
  unfold dataToBytes at h
  split at h
  · simp at h
  · rename_i b' hb
    injection h with h
    subst h
    simp [dataFromBytes, L.roundtrip v b' hb]

theorem except_bind_ok {α β ε : Type} {x : Except ε α} {f : α → Except ε β} {b : β} :
    (x >>= f) = .ok b ↔ ∃ a, x = .ok a ∧ f a = .ok b := by
  cases x <;> simp [bind, Except.bind]

theorem canon_state {s : NState} (h : CanonState s) :
    stateFromPb (s.toByte.toNat : Int) = .ok s := by
  have hb := s.toByte.toNat_lt
  have h1 : stateFromPb (s.toByte.toNat : Int) = .ok (NState.ofByte s.toByte) := by
    unfold stateFromPb
    rw [if_pos (by omega)]
    simp
  rw [h1]
  congr 1
  cases s with
  | unknown b =>
    simp only [CanonState] at h
    simp only [NState.toByte, NState.ofByte]
    split <;> first | omega | rfl
  | _ => rfl

theorem canon_version {v : Version} (h : CanonVersion v) : versioned (some v.toByte.toNat) = .ok v := by
  have hb := v.toByte.toNat_lt
  have h1 : versioned (some v.toByte.toNat) = .ok (Version.ofByte v.toByte) := by
    simp only [versioned]
    rw [if_pos (by omega)]
    simp
  rw [h1]
  congr 1
  cases v with
  | unknown b =>
    simp only [CanonVersion] at h
    simp only [Version.toByte, Version.ofByte, if_neg h]
  | _ => rfl

theorem meta_ok {m : Bytes} (h : m.length ≤ 65535) : metaFromWire m = .ok m := by
  unfold metaFromWire META_MAX_SIZE
  rw [if_neg (by omega)]

section
variable {I A : Type} {CI : DataCodec I} {CA : DataCodec A}

theorem nodeToPb_ok {n : TNode I A} {p : PbNode} (h : nodeToPb CI CA n = .ok p) :
    ∃ i a, dataToBytes CI n.id = .ok i ∧ dataToBytes CA n.addr = .ok a ∧
      p = { id := some i, addr := some a } := by
  simp only [nodeToPb, except_bind_ok] at h
  obtain ⟨i, hi, a, ha, hp⟩ := h
  injection hp with hp
  exact ⟨i, a, hi, ha, hp.symm⟩

theorem node_bridge (LI : LawfulData CI) (LA : LawfulData CA) {n : TNode I A} {p : PbNode}
    (h : nodeToPb CI CA n = .ok p) : nodeFromPb CI CA p = .ok n := by
  obtain ⟨i, a, hi, ha, rfl⟩ := nodeToPb_ok h
  simp only [nodeFromPb, require, bind, Except.bind, data_roundtrip LI hi, data_roundtrip LA ha]
  rfl

theorem pushNodeStateToPb_ok {n : PushNodeState I A} {p : PbPushNodeState}
    (h : pushNodeStateToPb CI CA n = .ok p) :
    ∃ i a, dataToBytes CI n.id = .ok i ∧ dataToBytes CA n.addr = .ok a ∧
      p = { id := some i, addr := some a, metadata := n.metadata, incarnation := some n.incarnation,
            state := some (n.state.toByte.toNat : Int), pv := some n.pv.toByte.toNat,
            dv := some n.dv.toByte.toNat } := by
  simp only [pushNodeStateToPb, except_bind_ok] at h
  obtain ⟨i, hi, a, ha, hp⟩ := h
  injection hp with hp
  exact ⟨i, a, hi, ha, hp.symm⟩

theorem pushNodeState_bridge (LI : LawfulData CI) (LA : LawfulData CA) {n : PushNodeState I A}
    {p : PbPushNodeState} (hw : PushNodeStateWF n) (h : pushNodeStateToPb CI CA n = .ok p) :
    pushNodeStateFromPb CI CA p = .ok n := by
  obtain ⟨i, a, hi, ha, rfl⟩ := pushNodeStateToPb_ok h
  obtain ⟨_, hm, hs, hpv, hdv⟩ := hw
  simp only [pushNodeStateFromPb, require, bind, Except.bind, data_roundtrip LI hi,
    data_roundtrip LA ha, canon_state hs, canon_version hpv, canon_version hdv, meta_ok hm]
  rfl

theorem mapM_bridge {α β γ : Type} {f : α → Except BridgeError β} {g : β → Except BridgeError γ}
    {k : α → γ} : ∀ {l : List α} {r : List β}, l.mapM f = .ok r →
      (∀ x ∈ l, ∀ y, f x = .ok y → g y = .ok (k x)) → r.mapM g = .ok (l.map k) := by
  intro l
  induction l with
  | nil => intro r h _; simp [pure, Except.pure] at h; subst h; rfl
  | cons x l ih =>
    intro r h hk
    simp only [List.mapM_cons, except_bind_ok] at h
    obtain ⟨y, hy, ys, hys, hr⟩ := h
    injection hr with hr
    subst hr
    simp only [List.mapM_cons, except_bind_ok]
    exact ⟨k x, hk x (by simp) y hy, l.map k, ih hys (fun z hz => hk z (by simp [hz])), rfl⟩

theorem mapM_forall {α β : Type} {f : α → Except BridgeError β} {P : β → Prop} :
    ∀ {l : List α} {r : List β}, l.mapM f = .ok r →
      (∀ x ∈ l, ∀ y, f x = .ok y → P y) → ∀ y ∈ r, P y := by
  intro l
  induction l with
  | nil => intro r h _; simp [pure, Except.pure] at h; subst h; simp
  | cons x l ih =>
    intro r h hk
    simp only [List.mapM_cons, except_bind_ok] at h
    obtain ⟨y, hy, ys, hys, hr⟩ := h
    injection hr with hr
    subst hr
    intro z hz
    rcases List.mem_cons.1 hz with rfl | hz
    · exact hk x (by simp) _ hy
    · exact ih hys (fun z hz => hk z (by simp [hz])) z hz

theorem except_map_ok {α β ε : Type} {x : Except ε α} {f : α → β} {b : β} :
    x.map f = .ok b ↔ ∃ a, x = .ok a ∧ f a = b := by
  cases x <;> simp [Except.map]

/-- Bridging to the wire structs and back. -/
theorem any_bridge (LI : LawfulData CI) (LA : LawfulData CA) {m : Message I A} {a : AnyMessage}
    (hw : MessageWF m) (h : messageToAny CI CA m = .ok a) : messageFromAny CI CA a = .ok m := by
  cases m with
  | ping p =>
    simp only [messageToAny, except_map_ok, pingToPb, except_bind_ok] at h
    obtain ⟨_, ⟨s, hs, t, ht, hp⟩, rfl⟩ := h
    injection hp with hp
    subst hp
    simp only [messageFromAny, pingFromPb, require, bind, Except.bind, node_bridge LI LA hs,
      node_bridge LI LA ht]
    rfl
  | indirectPing p =>
    simp only [messageToAny, except_map_ok, pingToPb, except_bind_ok] at h
    obtain ⟨_, ⟨s, hs, t, ht, hp⟩, rfl⟩ := h
    injection hp with hp
    subst hp
    simp only [messageFromAny, pingFromPb, require, bind, Except.bind, node_bridge LI LA hs,
      node_bridge LI LA ht]
    rfl
  | ack s p => simp only [messageToAny, Except.ok.injEq] at h; subst h; rfl
  | suspect s =>
    simp only [messageToAny, except_map_ok, badToPb, except_bind_ok] at h
    obtain ⟨_, ⟨n, hn, f, hf, hp⟩, rfl⟩ := h
    injection hp with hp
    subst hp
    simp only [messageFromAny, badFromPb, require, bind, Except.bind, data_roundtrip LI hn,
      data_roundtrip LI hf]
    rfl
  | alive al =>
    simp only [messageToAny, except_map_ok, aliveToPb, except_bind_ok] at h
    obtain ⟨_, ⟨n, hn, hp⟩, rfl⟩ := h
    injection hp with hp
    subst hp
    obtain ⟨_, hm, hpv, hdv⟩ := hw
    simp only [messageFromAny, aliveFromPb, require, bind, Except.bind, node_bridge LI LA hn,
      canon_version hpv, canon_version hdv, meta_ok hm]
    rfl
  | dead d =>
    simp only [messageToAny, except_map_ok, badToPb, except_bind_ok] at h
    obtain ⟨_, ⟨n, hn, f, hf, hp⟩, rfl⟩ := h
    injection hp with hp
    subst hp
    simp only [messageFromAny, badFromPb, require, bind, Except.bind, data_roundtrip LI hn,
      data_roundtrip LI hf]
    rfl
  | pushPull p =>
    simp only [messageToAny, except_map_ok, pushPullToPb, except_bind_ok] at h
    obtain ⟨_, ⟨ss, hss, hp⟩, rfl⟩ := h
    injection hp with hp
    subst hp
    have := mapM_bridge (g := pushNodeStateFromPb CI CA) (k := id) hss
      (fun x hx y hy => pushNodeState_bridge LI LA (hw x hx) hy)
    simp only [messageFromAny, pushPullFromPb, this, bind, Except.bind, List.map_id]
    rfl
  | userData d => simp only [messageToAny, Except.ok.injEq] at h; subst h; rfl
  | nack s => simp only [messageToAny, Except.ok.injEq] at h; subst h; rfl
  | errorResponse t => simp only [messageToAny, Except.ok.injEq] at h; subst h; rfl

theorem decodeBody_of_fields {a : AnyMessage} (hpre : ∀ f ∈ a.toFields, FieldPre f)
    (hs : a.body.length < 2 ^ 32) (hd : decodeBodyFields a.tag a.toFields = some a) :
    decodeBody a.tag a.body = .ok a := by
  have hp : pbFields a.body = some a.toFields := pbFields_of_pre _ hpre hs
  cases a <;> simp only [decodeBody, AnyMessage.tag] at hd ⊢ <;> simp only [hp, hd]

theorem node_len_of_mem {fs : List Field} {k : Nat} {b : Bytes} (hs : (encodeFields fs).length < 2 ^ 32)
    (h : (k, WireVal.len b) ∈ fs) : b.length < 2 ^ 32 :=
  Nat.lt_of_le_of_lt (len_le_encode h) hs

/-- Encoding a bridged message and decoding its body. -/
theorem body_roundtrip {m : Message I A} {a : AnyMessage} (hw : MessageWF m)
    (h : messageToAny CI CA m = .ok a) (hs : a.body.length < 2 ^ 32) :
    decodeBody a.tag a.body = .ok a := by
  have key : ∀ p : PbPing, ∀ pg : Ping I A, pg.seq < 2 ^ 32 → pingToPb CI CA pg = .ok p →
      (encodeFields p.toFields).length < 2 ^ 32 →
      (∀ f ∈ p.toFields, FieldPre f) ∧ p.toFields.foldlM PbPing.step {} = some p := by
    intro p pg hseq hp hs
    simp only [pingToPb, except_bind_ok] at hp
    obtain ⟨s, hs', t, ht, hp⟩ := hp
    injection hp with hp
    subst hp
    obtain ⟨i, ad, _, _, rfl⟩ := nodeToPb_ok hs'
    obtain ⟨i', ad', _, _, rfl⟩ := nodeToPb_ok ht
    refine ⟨?_, ping_fields _ _ _ _ _ hseq ?_ ?_⟩
    · intro f hf
      simp only [PbPing.toFields, optLen, optU32, Option.map_some, List.mem_append, List.mem_cons,
        List.not_mem_nil, or_false] at hf
      rcases hf with (rfl | rfl) | rfl
      · exact ⟨by omega, by omega, by omega⟩
      · simp [FieldPre]
      · simp [FieldPre]
    · exact node_len_of_mem (k := 2) hs (by simp [PbPing.toFields, optLen])
    · exact node_len_of_mem (k := 3) hs (by simp [PbPing.toFields, optLen])
  have keyBad : ∀ p : PbBad, ∀ b : BadState I, b.incarnation < 2 ^ 32 → badToPb CI b = .ok p →
      (∀ f ∈ p.toFields, FieldPre f) ∧ p.toFields.foldlM PbBad.step {} = some p := by
    intro p b hinc hp
    simp only [badToPb, except_bind_ok] at hp
    obtain ⟨n, hn, f, hf, hp⟩ := hp
    injection hp with hp
    subst hp
    refine ⟨?_, bad_fields _ _ _ hinc⟩
    intro f hf
    simp only [PbBad.toFields, optLen, optU32, List.mem_append, List.mem_cons,
      List.not_mem_nil, or_false] at hf
    rcases hf with (rfl | rfl) | rfl
    · exact ⟨by omega, by omega, by omega⟩
    · simp [FieldPre]
    · simp [FieldPre]
  cases m with
  | ping pg =>
    simp only [messageToAny, except_map_ok] at h
    obtain ⟨p, hp, rfl⟩ := h
    obtain ⟨h1, h2⟩ := key p pg hw hp hs
    exact decodeBody_of_fields h1 hs (by simp only [AnyMessage.tag, AnyMessage.toFields, decodeBodyFields, h2]; rfl)
  | indirectPing pg =>
    simp only [messageToAny, except_map_ok] at h
    obtain ⟨p, hp, rfl⟩ := h
    obtain ⟨h1, h2⟩ := key p pg hw hp hs
    exact decodeBody_of_fields h1 hs (by simp only [AnyMessage.tag, AnyMessage.toFields, decodeBodyFields, h2]; rfl)
  | ack s p =>
    simp only [messageToAny, Except.ok.injEq] at h
    subst h
    refine decodeBody_of_fields ?_ hs (by
      simp only [AnyMessage.tag, AnyMessage.toFields, decodeBodyFields, ack_fields s p hw]; rfl)
    intro f hf
    simp only [AnyMessage.toFields, PbAck.toFields, List.mem_append] at hf
    rcases hf with hf | hf
    · unfold impU32 at hf
      split at hf
      · simp at hf
      · simp only [List.mem_cons, List.not_mem_nil, or_false] at hf
        subst hf
        simp only [MessageWF] at hw
        exact ⟨by omega, by omega, by omega⟩
    · rw [impLen_mem hf]; simp [FieldPre]
  | suspect b =>
    simp only [messageToAny, except_map_ok] at h
    obtain ⟨p, hp, rfl⟩ := h
    obtain ⟨h1, h2⟩ := keyBad p b hw hp
    exact decodeBody_of_fields h1 hs (by simp only [AnyMessage.tag, AnyMessage.toFields, decodeBodyFields, h2]; rfl)
  | dead b =>
    simp only [messageToAny, except_map_ok] at h
    obtain ⟨p, hp, rfl⟩ := h
    obtain ⟨h1, h2⟩ := keyBad p b hw hp
    exact decodeBody_of_fields h1 hs (by simp only [AnyMessage.tag, AnyMessage.toFields, decodeBodyFields, h2]; rfl)
  | alive al =>
    simp only [messageToAny, except_map_ok, aliveToPb, except_bind_ok] at h
    obtain ⟨_, ⟨n, hn, hp⟩, rfl⟩ := h
    injection hp with hp
    subst hp
    obtain ⟨hinc, _, _, _⟩ := hw
    obtain ⟨i, ad, _, _, rfl⟩ := nodeToPb_ok hn
    have h2 := alive_fields al.incarnation al.metadata i ad al.pv.toByte al.dv.toByte hinc
      (node_len_of_mem (k := 3) hs (by simp [AnyMessage.toFields, PbAlive.toFields, optLen]))
    refine decodeBody_of_fields ?_ hs (by simp only [AnyMessage.tag, AnyMessage.toFields, decodeBodyFields, h2]; rfl)
    have := al.pv.toByte.toNat_lt
    have := al.dv.toByte.toNat_lt
    intro f hf
    simp only [AnyMessage.toFields, PbAlive.toFields, optLen, optU32, Option.map_some,
      List.mem_append, List.mem_cons, List.not_mem_nil, or_false] at hf
    rcases hf with (((rfl | hf) | rfl) | rfl) | rfl
    · exact ⟨by omega, by omega, by omega⟩
    · rw [impLen_mem hf]; simp [FieldPre]
    · simp [FieldPre]
    · exact ⟨by omega, by omega, by omega⟩
    · exact ⟨by omega, by omega, by omega⟩
  | pushPull p =>
    simp only [messageToAny, except_map_ok, pushPullToPb, except_bind_ok] at h
    obtain ⟨_, ⟨ss, hss, hp⟩, rfl⟩ := h
    injection hp with hp
    subst hp
    have hlen : ∀ s ∈ ss, (encodeFields s.toFields).length < 2 ^ 32 := by
      intro s hsm
      refine node_len_of_mem (k := 2) hs ?_
      simp only [AnyMessage.toFields, PbPushPull.toFields, List.mem_append, List.mem_map]
      exact .inl (.inr ⟨s, hsm, rfl⟩)
    have hdec : ∀ s ∈ ss, (encodeFields s.toFields).length < 2 ^ 32 →
        PbPushNodeState.decode (encodeFields s.toFields) = some s := by
      refine mapM_forall (P := fun s => (encodeFields s.toFields).length < 2 ^ 32 →
        PbPushNodeState.decode (encodeFields s.toFields) = some s) hss ?_
      intro x hx y hy hl
      obtain ⟨i, ad, _, _, rfl⟩ := pushNodeStateToPb_ok hy
      exact pushNodeState_decode _ _ _ _ _ _ _ (hw x hx).1 hl
    have h2 := pushPull_fields p.join ss p.userData (fun s hsm => hdec s hsm (hlen s hsm))
    refine decodeBody_of_fields ?_ hs (by simp only [AnyMessage.tag, AnyMessage.toFields, decodeBodyFields, h2]; rfl)
    intro f hf
    simp only [AnyMessage.toFields, PbPushPull.toFields, List.mem_append, List.mem_map] at hf
    rcases hf with (hf | ⟨s, _, rfl⟩) | hf
    · split at hf
      · simp only [List.mem_cons, List.not_mem_nil, or_false] at hf
        subst hf
        exact ⟨by omega, by omega, by omega⟩
      · simp at hf
    · simp [FieldPre]
    · rw [impLen_mem hf]; simp [FieldPre]
  | userData d =>
    simp only [messageToAny, Except.ok.injEq] at h
    subst h
    refine decodeBody_of_fields ?_ hs (by
      simp only [AnyMessage.tag, AnyMessage.toFields, decodeBodyFields, userData_fields d]; rfl)
    intro f hf
    rw [impLen_mem hf]; simp [FieldPre]
  | nack s =>
    simp only [messageToAny, Except.ok.injEq] at h
    subst h
    refine decodeBody_of_fields ?_ hs (by
      simp only [AnyMessage.tag, AnyMessage.toFields, decodeBodyFields, nack_fields s hw]; rfl)
    intro f hf
    simp only [AnyMessage.toFields, PbNack.toFields] at hf
    unfold impU32 at hf
    split at hf
    · simp at hf
    · simp only [List.mem_cons, List.not_mem_nil, or_false] at hf
      subst hf
      simp only [MessageWF] at hw
      exact ⟨by omega, by omega, by omega⟩
  | errorResponse t =>
    simp only [messageToAny, Except.ok.injEq] at h
    subst h
    refine decodeBody_of_fields ?_ hs (by
      simp only [AnyMessage.tag, AnyMessage.toFields, decodeBodyFields, error_fields t hw]; rfl)
    intro f hf
    rw [impLen_mem hf]; simp [FieldPre]

theorem decode_plainFrame (m : RawMsg) (h : m.2.length < 2 ^ 32) :
    decodePlainFrame (plainFrame m) = .ok (m.1, m.2, (plainFrame m).length) := by
  rw [decodePlainFrame_ok_iff]
  exact ⟨plainFrame m, [], by simp, ⟨encodeVarint m.2.length, lenField_encodeVarint h, rfl⟩, rfl⟩

theorem parse_plainFrame (LI : LawfulData CI) (LA : LawfulData CA) {m : Message I A} {a : AnyMessage}
    (hw : MessageWF m) (h : messageToAny CI CA m = .ok a) (hs : a.body.length < 2 ^ 32) :
    parseMessage CI CA (plainFrame (a.tag, a.body)) = .ok m := by
  unfold parseMessage decodeMessage
  rw [decode_plainFrame (a.tag, a.body) hs]
  simp only [body_roundtrip hw h hs, any_bridge LI LA hw h]
  simp

theorem parseParts_anys (LI : LawfulData CI) (LA : LawfulData CA) : ∀ {ms : List (Message I A)}
    {as : List AnyMessage}, toAnys CI CA ms = .ok as → (∀ m ∈ ms, MessageWF m) →
    (∀ a ∈ as, a.body.length < 2 ^ 32) →
    parseParts CI CA (as.map (fun a => plainFrame (a.tag, a.body))) = .ok ms := by
  intro ms
  induction ms with
  | nil => intro as h _ _; simp [toAnys] at h; subst h; rfl
  | cons m ms ih =>
    intro as h hw hs
    simp only [toAnys] at h
    cases h1 : messageToAny CI CA m with
    | error e => simp [h1] at h
    | ok a =>
      simp only [h1] at h
      cases h2 : toAnys CI CA ms with
      | error e => simp [h2] at h
      | ok as' =>
        simp only [h2, Except.ok.injEq] at h
        subst h
        simp only [List.map_cons, parseParts,
          parse_plainFrame LI LA (hw m (by simp)) h1 (hs a (by simp)),
          ih h2 (fun x hx => hw x (by simp [hx])) (fun x hx => hs x (by simp [hx]))]

theorem toAnys_length : ∀ {ms : List (Message I A)} {as : List AnyMessage},
    toAnys CI CA ms = .ok as → as.length = ms.length := by
  intro ms
  induction ms with
  | nil => intro as h; simp [toAnys] at h; subst h; rfl
  | cons m ms ih =>
    intro as h
    simp only [toAnys] at h
    cases h1 : messageToAny CI CA m with
    | error e => simp [h1] at h
    | ok a =>
      simp only [h1] at h
      cases h2 : toAnys CI CA ms with
      | error e => simp [h2] at h
      | ok as' =>
        simp only [h2, Except.ok.injEq] at h
        subst h
        simp [ih h2]

end
end Verif
