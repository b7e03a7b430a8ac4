import Verif.Props.Messages
import Verif.Spec.Cluster
import Verif.Spec.Gossip
/-
What can be decoded from the bytes a node hands to the network.
-/
namespace Verif.Cluster
open Verif Ep Spec Props
variable {I A : Type} {CI : DataCodec I} {CA : DataCodec A}

/-- Decoding `m'` from the encoding of `m`: the same message if it is well formed, and nothing about members from a
message that says nothing about members. -/
def Decodes (m m' : Message I A) : Prop := (MessageWF m → m' = m) ∧ (¬ AboutMembers m → ¬ AboutMembers m')

theorem frame_decodes (LI : LawfulData CI) (LA : LawfulData CA) {m m' : Message I A} {a : AnyMessage}
    (h : messageToAny CI CA m = .ok a) (hs : a.body.length < 2 ^ 32)
    (hp : parseMessage CI CA (plainFrame (a.tag, a.body)) = .ok m') : Decodes m m' := by
  refine ⟨fun hw => ?_, fun hn => ?_⟩
  · rw [parse_plainFrame LI LA hw h hs] at hp
    cases hp; rfl
  · obtain ⟨tag, body, fs, h1, h2, h3⟩ := C06_meaning _ _ hp
    have hf : Frame a.tag.toByte a.body (plainFrame (a.tag, a.body)) := frame_plainFrame (m := (a.tag, a.body)) hs
    have ht : a.tag = tag := tag_toByte_inj (frame_unique hf h1).1
    subst ht
    have hk : a.tag ≠ .alive ∧ a.tag ≠ .suspect ∧ a.tag ≠ .dead ∧ a.tag ≠ .pushPull := by
      cases m <;> simp only [AboutMembers, not_true_eq_false] at hn <;>
        (simp only [messageToAny, except_map_ok, Except.ok.injEq] at h;
         (try obtain ⟨_, _, rfl⟩ := h); (try subst h); simp [AnyMessage.tag])
    obtain ⟨k1, k2, k3, k4⟩ := hk
    cases m' <;> simp only [AboutMembers, not_false_eq_true]
    all_goals
      (generalize a.tag = t at h3 k1 k2 k3 k4
       cases t <;> simp_all [MeansFields])

theorem parse_encoded (LI : LawfulData CI) (LA : LawfulData CA) {m : Message I A} {b : Bytes} {ms : List (Message I A)}
    (h : encodeTyped CI CA m = .ok b) (hp : parseMessages CI CA b = .ok ms) : ∃ m', ms = [m'] ∧ Decodes m m' := by
  unfold encodeTyped encodeMessage at h
  cases h1 : messageToAny CI CA m with
  | error e => simp [h1] at h
  | ok a =>
    simp only [h1] at h
    cases h2 : encodeFrame (a.tag, a.body) with
    | error e => simp [h2] at h
    | ok b' =>
      simp only [h2, Except.ok.injEq] at h
      subst h
      obtain ⟨hs, rfl⟩ := (encodeFrame_ok_iff _ _).1 h2
      unfold parseMessages at hp
      rw [if_neg (by rw [plainFrame_head]; simpa using tag_ne_compound a)] at hp
      cases h3 : parseMessage CI CA (plainFrame (a.tag, a.body)) with
      | error e => rw [h3] at hp; cases hp
      | ok m' =>
        rw [h3] at hp
        cases hp
        exact ⟨m', rfl, frame_decodes LI LA h1 hs h3⟩

theorem parts_decode (LI : LawfulData CI) (LA : LawfulData CA) : ∀ {ms : List (Message I A)} {as : List AnyMessage}
    {ms' : List (Message I A)}, toAnys CI CA ms = .ok as → (∀ a ∈ as, a.body.length < 2 ^ 32) →
    parseParts CI CA (as.map (fun a => plainFrame (a.tag, a.body))) = .ok ms' → List.Forall₂ Decodes ms ms' := by
  intro ms
  induction ms with
  | nil =>
    intro as ms' h _ hp
    cases h
    cases hp
    exact .nil
  | cons m ms ih =>
    intro as ms' h hs hp
    unfold toAnys at h
    cases h1 : messageToAny CI CA m with
    | error e => simp [h1] at h
    | ok a =>
      simp only [h1] at h
      cases h2 : toAnys CI CA ms with
      | error e => simp [h2] at h
      | ok as' =>
        simp only [h2, Except.ok.injEq] at h
        subst h
        rw [List.map_cons] at hp
        unfold parseParts at hp
        cases h3 : parseMessage CI CA (plainFrame (a.tag, a.body)) with
        | error e => rw [h3] at hp; cases hp
        | ok m' =>
          rw [h3] at hp
          dsimp only at hp
          cases h4 : parseParts CI CA (as'.map (fun a => plainFrame (a.tag, a.body))) with
          | error e => rw [h4] at hp; cases hp
          | ok ms'' =>
            rw [h4] at hp
            cases hp
            exact .cons (frame_decodes LI LA h1 (hs a (by simp)) h3)
              (ih h2 (fun a ha => hs a (List.mem_cons_of_mem _ ha)) h4)

theorem parse_compound (LI : LawfulData CI) (LA : LawfulData CA) {ms ms' : List (Message I A)} {b : Bytes}
    (h : encodeTypedCompound CI CA ms = .ok b) (hp : parseMessages CI CA b = .ok ms') : List.Forall₂ Decodes ms ms' := by
  unfold encodeTypedCompound at h
  cases h1 : toAnys CI CA ms with
  | error e => simp [h1] at h
  | ok as =>
    simp only [h1] at h
    cases h2 : encodeCompound (as.map (fun a => (a.tag, a.body))) with
    | error e => simp [h2] at h
    | ok b' =>
      simp only [h2, Except.ok.injEq] at h
      subst h
      obtain ⟨e1, e2, e3, e4⟩ := encodeCompound_ok h2
      have hd : decodeCompound b' =
          .ok ((as.map (fun a => (a.tag, a.body))).map plainFrame) := by
        rw [decodeCompound_ok_iff]
        refine ⟨by simpa using e1, _, _, ?_, parts_of_frames _ (fun m hm => (e3 m hm).2), e4⟩
        simpa using lenField_encodeVarint e2
      have hh : b'.head? = some 1 := by rw [e4]; rfl
      unfold parseMessages at hp
      rw [if_pos (by rw [hh]; rfl), hd] at hp
      simp only [List.map_map] at hp
      exact parts_decode LI LA h1 (fun a ha => (e3 (a.tag, a.body) (List.mem_map.2 ⟨a, ha, rfl⟩)).1) hp

/-- Everything decoded from the datagram of the messages `ms` is decoded from one of them. -/
theorem datagram_decodes (LI : LawfulData CI) (LA : LawfulData CA) {t : Transmit I A} {b : Bytes}
    {ms : List (Message I A)} (hb : b ∈ datagramOf CI CA t) (hp : parseMessages CI CA b = .ok ms) :
    ∀ m' ∈ ms, ∃ m ∈ messagesIn t, Decodes m m' := by
  intro m' hm'
  cases t with
  | packet dst m =>
    simp only [datagramOf, wireOf] at hb
    cases he : encodeTyped CI CA m with
    | error e => rw [he] at hb; simp [Except.toOption] at hb
    | ok b' =>
      rw [he] at hb
      simp only [Except.toOption, Option.toList_some, List.mem_singleton] at hb
      subst hb
      obtain ⟨x, rfl, hx⟩ := parse_encoded LI LA he hp
      rw [List.mem_singleton.1 hm']
      exact ⟨m, by simp [messagesIn], hx⟩
  | compound dst l =>
    simp only [datagramOf] at hb
    cases he : encodeTypedCompound CI CA l with
    | error e => rw [he] at hb; simp [Except.toOption] at hb
    | ok b' =>
      rw [he] at hb
      simp only [Except.toOption, Option.toList_some, List.mem_singleton] at hb
      subst hb
      have := parse_compound LI LA he hp
      show ∃ m ∈ l, _
      clear hp he
      induction this with
      | nil => cases hm'
      | cons h _ ih =>
        rcases List.mem_cons.1 hm' with rfl | h'
        · exact ⟨_, by simp, h⟩
        · obtain ⟨m, hm, hd⟩ := ih h'
          exact ⟨m, List.mem_cons_of_mem _ hm, hd⟩

theorem wire_decodes (LI : LawfulData CI) (LA : LawfulData CA) {m : Message I A} {b : Bytes}
    {ms : List (Message I A)} (hb : b ∈ wireOf CI CA m) (hp : parseMessages CI CA b = .ok ms) :
    ∀ m' ∈ ms, Decodes m m' := by
  intro m' hm'
  unfold wireOf at hb
  cases he : encodeTyped CI CA m with
  | error e => rw [he] at hb; simp [Except.toOption] at hb
  | ok b' =>
    rw [he] at hb
    simp only [Except.toOption, Option.toList_some, List.mem_singleton] at hb
    subst hb
    obtain ⟨x, rfl, hx⟩ := parse_encoded LI LA he hp
    rw [List.mem_singleton.1 hm']
    exact hx

end Verif.Cluster
