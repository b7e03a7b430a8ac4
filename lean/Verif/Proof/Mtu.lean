import Verif.Proof.Sends
import Verif.Proof.RelayFacts
import Verif.Proof.Messages
import Verif.Spec.Mtu
/-
Sizes of encoded messages and datagrams.
-/
namespace Verif
variable {I A : Type} {CI : DataCodec I} {CA : DataCodec A}

theorem encodeTyped_ok_iff {m : Message I A} {b : Bytes} :
    encodeTyped CI CA m = .ok b ↔ ∃ a, messageToAny CI CA m = .ok a ∧ a.body.length < 2 ^ 32 ∧
      b = plainFrame (a.tag, a.body) := by
  unfold encodeTyped encodeMessage
  cases h : messageToAny CI CA m with
  | error e => simp
  | ok a =>
    have := encodeFrame_ok_iff (a.tag, a.body) b
    dsimp only
    cases hf : encodeFrame (a.tag, a.body) with
    | error e => rw [hf] at this; simp at this ⊢; exact this
    | ok c =>
      rw [hf] at this
      simp only [Except.ok.injEq] at this ⊢
      rw [this]
      simp

theorem wireLen_of_ok {m : Message I A} {b : Bytes} (h : encodeTyped CI CA m = .ok b) (hb : b.length ≤ U64_MAX) :
    wireLen CI CA m = b.length := by
  unfold wireLen; rw [h]; exact Nat.min_eq_left hb

theorem encodeTyped_short {m : Message I A} {b : Bytes} (h : encodeTyped CI CA m = .ok b) : b.length ≤ U64_MAX := by
  obtain ⟨a, _, hl, rfl⟩ := encodeTyped_ok_iff.1 h
  rw [plainFrame_length]
  have := varintLen_le_five (v := a.body.length) (by omega)
  dsimp only
  unfold U64_MAX
  omega

theorem wireLen_ok {m : Message I A} {b : Bytes} (h : encodeTyped CI CA m = .ok b) : wireLen CI CA m = b.length :=
  wireLen_of_ok h (encodeTyped_short h)

theorem ok_of_wireLen {m : Message I A} (h : wireLen CI CA m < U64_MAX) :
    ∃ b, encodeTyped CI CA m = .ok b ∧ b.length = wireLen CI CA m := by
  cases hb : encodeTyped CI CA m with
  | error e => unfold wireLen at h; rw [hb] at h; exact absurd h (Nat.lt_irrefl _)
  | ok b => exact ⟨b, rfl, (wireLen_ok hb).symm⟩

/-- The bytes a message takes as a part of a compound frame. -/
def partLen (CI : DataCodec I) (CA : DataCodec A) (m : Message I A) : Nat :=
  varintLen (wireLen CI CA m) + wireLen CI CA m

theorem toAnys_ok {ms : List (Message I A)} (h : ∀ m ∈ ms, wireLen CI CA m < U64_MAX) :
    ∃ as, toAnys CI CA ms = .ok as ∧ as.length = ms.length ∧
      (∀ a ∈ as, (plainFrame (a.tag, a.body)).length < U64_MAX ∧ a.body.length < 2 ^ 32) ∧
      (as.map (fun a => varintLen (plainFrame (a.tag, a.body)).length + (plainFrame (a.tag, a.body)).length)).sum =
        (ms.map (partLen CI CA)).sum := by
  induction ms with
  | nil => exact ⟨[], rfl, rfl, by simp, rfl⟩
  | cons m ms ih =>
    obtain ⟨as, h1, h2, h3, h4⟩ := ih (fun x hx => h x (List.mem_cons_of_mem _ hx))
    have hm := h m (List.mem_cons_self ..)
    obtain ⟨b, hb, hl⟩ := ok_of_wireLen hm
    obtain ⟨a, ha, hs, rfl⟩ := encodeTyped_ok_iff.1 hb
    refine ⟨a :: as, ?_, by simp [h2], ?_, ?_⟩
    · unfold toAnys; rw [ha, h1]
    · intro x hx
      rcases List.mem_cons.1 hx with rfl | hx
      · exact ⟨by rw [hl]; exact hm, hs⟩
      · exact h3 x hx
    · simp only [List.map_cons, List.sum_cons, h4]
      unfold partLen
      rw [hl]

theorem length_flatten_parts (ms : List RawMsg) :
    ((ms.map (fun m => encodeVarint (plainFrame m).length ++ plainFrame m)).flatten).length =
      (ms.map (fun m => varintLen (plainFrame m).length + (plainFrame m).length)).sum := by
  induction ms with
  | nil => rfl
  | cons m ms ih =>
    simp only [List.map_cons, List.flatten_cons, List.length_append, ih, encodeVarint_length, List.sum_cons]

/-- A compound frame whose parts take at most `n` bytes. -/
theorem compound_ok {ms : List (Message I A)} {n : Nat} (h2 : 2 ≤ ms.length) (hn : n < 2 ^ 32)
    (hs : (ms.map (partLen CI CA)).sum ≤ n) :
    ∃ b, encodeTypedCompound CI CA ms = .ok b ∧ b.length ≤ 6 + n := by
  have hle : ∀ m ∈ ms, partLen CI CA m ≤ n := fun m hm =>
    Nat.le_trans (List.le_sum_of_mem (List.mem_map_of_mem hm)) hs
  have hw : ∀ m ∈ ms, wireLen CI CA m < 2 ^ 32 := fun m hm => by
    have := hle m hm; unfold partLen at this; omega
  obtain ⟨as, h1, hl, h3, h4⟩ := toAnys_ok (ms := ms) (CI := CI) (CA := CA)
    (fun m hm => Nat.lt_of_lt_of_le (hw m hm) (by unfold U64_MAX; omega))
  have hcnt : ∀ l : List (Message I A), l.length ≤ (l.map (partLen CI CA)).sum := by
    intro l
    induction l with
    | nil => simp
    | cons m l ih =>
      have := varintLen_pos (wireLen CI CA m)
      simp only [List.length_cons, List.map_cons, List.sum_cons]
      unfold partLen at *
      omega
  have hfr : ∀ a ∈ as, (plainFrame (a.tag, a.body)).length < 2 ^ 32 := by
    intro a ha
    have := List.le_sum_of_mem (List.mem_map_of_mem (f := fun a : AnyMessage =>
      varintLen (plainFrame (a.tag, a.body)).length + (plainFrame (a.tag, a.body)).length) ha)
    omega
  have hcn := hcnt ms
  have henc := encodeCompound_of_fits (ms := as.map (fun a => (a.tag, a.body))) (by simpa [hl] using h2)
    (by simp only [List.length_map]; omega)
    (by intro m hm; obtain ⟨a, ha, rfl⟩ := List.mem_map.1 hm; exact hfr a ha)
  refine ⟨_, by unfold encodeTypedCompound; rw [h1]; dsimp only; rw [henc], ?_⟩
  have hv := varintLen_le_five (v := as.length) (by omega)
  have hp := length_flatten_parts (as.map (fun a => (a.tag, a.body)))
  rw [List.map_map (g := fun m : RawMsg => varintLen (plainFrame m).length + (plainFrame m).length)] at hp
  have h4' : (List.map ((fun m : RawMsg => varintLen (plainFrame m).length + (plainFrame m).length) ∘
      fun a : AnyMessage => (a.tag, a.body)) as).sum = (ms.map (partLen CI CA)).sum := h4
  rw [h4'] at hp
  simp only [List.length_cons, List.length_append, encodeVarint_length, List.length_map, hp]
  omega

theorem partLen_le {m : Message I A} (h : wireLen CI CA m < 2 ^ 32) :
    partLen CI CA m ≤ wireLen CI CA m + COMPOUND_MAX_PART_PREFIX_LEN := by
  have := varintLen_le_five (v := wireLen CI CA m) (by omega)
  unfold partLen COMPOUND_MAX_PART_PREFIX_LEN
  omega

theorem encodeFields_length_cons (f : Field) (fs : List Field) :
    (encodeFields (f :: fs)).length = (encodeField f).length + (encodeFields fs).length := by
  simp [encodeFields]

theorem encodeField_len_length (n : Nat) (b : Bytes) (h : n * 8 + 2 < 128) :
    (encodeField (n, .len b)).length = 1 + varintLen b.length + b.length := by
  have : varintLen (n * 8 + 2) = 1 := by
    have h1 := varintLen_le_of_lt 0 (n * 8 + 2) (by omega)
    have h2 := varintLen_pos (n * 8 + 2)
    omega
  simp [encodeField, encodeVarint_length, this]; omega

theorem encodeField_varint_length (n v : Nat) (h : n * 8 < 128) :
    (encodeField (n, .varint v)).length = 1 + varintLen v := by
  have : varintLen (n * 8) = 1 := by
    have h1 := varintLen_le_of_lt 0 (n * 8) (by omega)
    have h2 := varintLen_pos (n * 8)
    omega
  simp [encodeField, encodeVarint_length, this]

theorem encodeFields_append_length (a b : List Field) :
    (encodeFields (a ++ b)).length = (encodeFields a).length + (encodeFields b).length := by
  simp [encodeFields]

theorem impU32_length (v : Nat) : (encodeFields (impU32 1 v)).length = if v = 0 then 0 else 1 + varintLen v := by
  unfold impU32
  split
  · rfl
  · rw [encodeFields_length_cons, encodeField_varint_length _ _ (by omega)]; rfl

theorem impLen_length (b : Bytes) :
    (encodeFields (impLen 2 b)).length = if b = [] then 0 else 1 + varintLen b.length + b.length := by
  unfold impLen
  split
  · rfl
  · rw [encodeFields_length_cons, encodeField_len_length _ _ (by omega)]; rfl

theorem varintLen_small {n : Nat} (h : n < 2 ^ 21) : varintLen n ≤ 3 := varintLen_le_of_lt 2 n (by omega)

theorem userData_part {b : Bytes} (h : b.length + 11 < 2 ^ 21) :
    partLen CI CA (.userData b : Message I A) ≤ b.length + 11 := by
  have hb : (AnyMessage.userData { data := b }).body.length ≤ 1 + 3 + b.length := by
    show (encodeFields (impLen 1 b)).length ≤ _
    unfold impLen
    split
    · simp [encodeFields]
    · rw [encodeFields_length_cons, encodeField_len_length _ _ (by omega)]
      have := varintLen_small (n := b.length) (by omega)
      simp [encodeFields]; omega
  have henc : encodeTyped CI CA (.userData b : Message I A) =
      .ok (plainFrame ((AnyMessage.userData { data := b }).tag, (AnyMessage.userData { data := b }).body)) :=
    encodeTyped_ok_iff.2 ⟨_, rfl, by omega, rfl⟩
  have hw := wireLen_ok henc
  rw [plainFrame_length] at hw
  dsimp only at hw
  have h1 := varintLen_small (n := (AnyMessage.userData { data := b }).body.length) (by omega)
  have h2 := varintLen_small (n := wireLen CI CA (.userData b : Message I A)) (by omega)
  unfold partLen
  omega

theorem varintLen_top {s : Nat} (h : s < 2 ^ 32) : varintLen s ≤ varintLen (2 ^ 32 - 1) := by
  have : varintLen (2 ^ 32 - 1) = 5 := by decide +kernel
  rw [this]
  exact varintLen_le_five (by omega)

theorem varintLen_mono {a b : Nat} (h : a ≤ b) : varintLen a ≤ varintLen b := by
  induction b using Nat.strongRecOn generalizing a with
  | _ b ih =>
    rw [varintLen.eq_1 a, varintLen.eq_1 b]
    by_cases hb : b ≥ 0x80
    · by_cases ha : a ≥ 0x80
      · rw [dif_pos ha, dif_pos hb]
        refine Nat.add_le_add_left (ih _ ?_ ?_) 1
        · rw [Nat.shiftRight_eq_div_pow]; omega
        · rw [Nat.shiftRight_eq_div_pow, Nat.shiftRight_eq_div_pow]; exact Nat.div_le_div_right h
      · rw [dif_neg ha, dif_pos hb]; omega
    · rw [dif_neg hb, dif_neg (by omega)]

theorem plainFrame_mono {m m' : RawMsg} (h : m.2.length ≤ m'.2.length) : (plainFrame m).length ≤ (plainFrame m').length := by
  rw [plainFrame_length, plainFrame_length]
  have := varintLen_mono h
  omega

/-- A shorter body makes a shorter frame. -/
theorem shorter {m m' : Message I A} {a : AnyMessage} (ha : messageToAny CI CA m = .ok a)
    (h : ∀ a', messageToAny CI CA m' = .ok a' → a.body.length ≤ a'.body.length) {n : Nat}
    (hb : wireLen CI CA m' ≤ n) (hn : n < U64_MAX) : wireLen CI CA m ≤ n := by
  obtain ⟨b, hb', hl⟩ := ok_of_wireLen (Nat.lt_of_le_of_lt hb hn)
  obtain ⟨a', ha', hs, rfl⟩ := encodeTyped_ok_iff.1 hb'
  have hle := h a' ha'
  have hok : encodeTyped CI CA m = .ok (plainFrame (a.tag, a.body)) := encodeTyped_ok_iff.2 ⟨a, ha, by omega, rfl⟩
  rw [wireLen_ok hok]
  have := plainFrame_mono (m := (a.tag, a.body)) (m' := (a'.tag, a'.body)) hle
  omega

theorem ack_len {s : Nat} {p p' : Bytes} (hs : s < 2 ^ 32) (hp : p.length ≤ p'.length) {n : Nat}
    (h : wireLen CI CA (.ack (2 ^ 32 - 1) p' : Message I A) ≤ n) (hn : n < U64_MAX) :
    wireLen CI CA (.ack s p : Message I A) ≤ n := by
  refine shorter (a := .ack { seq := s, payload := p }) rfl ?_ h hn
  intro a' ha'
  cases ha'
  show (encodeFields (impU32 1 s ++ impLen 2 p)).length ≤ (encodeFields (impU32 1 (2 ^ 32 - 1) ++ impLen 2 p')).length
  have h1 := varintLen_top hs
  have h2 := varintLen_mono hp
  have e : 2 ^ 32 - 1 ≠ 0 := by omega
  have e' : p = [] ∨ p' ≠ [] := by
    by_cases hp0 : p = []
    · exact .inl hp0
    · right; rintro rfl; apply hp0; simpa using hp
  rw [encodeFields_append_length, encodeFields_append_length, impU32_length, impU32_length, impLen_length, impLen_length,
    if_neg e]
  rcases e' with e' | e'
  · rw [if_pos e']; split <;> omega
  · rw [if_neg (c := p' = []) e']; (repeat' split) <;> omega

theorem nack_len {s : Nat} (hs : s < 2 ^ 32) {n : Nat} (h : wireLen CI CA (.ack (2 ^ 32 - 1) [] : Message I A) ≤ n)
    (hn : n < U64_MAX) : wireLen CI CA (.nack s : Message I A) ≤ n := by
  refine shorter (a := .nack { seq := s }) rfl ?_ h hn
  intro a' ha'
  cases ha'
  show (encodeFields (impU32 1 s)).length ≤ (encodeFields (impU32 1 (2 ^ 32 - 1) ++ impLen 2 [])).length
  have h1 := varintLen_top hs
  have e : 2 ^ 32 - 1 ≠ 0 := by omega
  rw [encodeFields_append_length, impU32_length, impU32_length, if_neg e]
  split <;> omega

/-- A Dead claim by a node about itself is no longer than its ping to itself. -/
theorem dead_len {id : I} {addr : A} {inc : Nat} (hs : inc < 2 ^ 32) {n : Nat}
    (h : wireLen CI CA (.ping { seq := 2 ^ 32 - 1, source := { id, addr }, target := { id, addr } }) ≤ n)
    (hn : n < U64_MAX) : wireLen CI CA (.dead { incarnation := inc, node := id, src := id } : Message I A) ≤ n := by
  obtain ⟨b, hb', hl⟩ := ok_of_wireLen (Nat.lt_of_le_of_lt h hn)
  obtain ⟨a', ha', hs', rfl⟩ := encodeTyped_ok_iff.1 hb'
  cases hid : CI.encode id with
  | none => simp [messageToAny, pingToPb, nodeToPb, dataToBytes, hid, bind, Except.bind, Except.map] at ha'
  | some bi =>
    cases had : CA.encode addr with
    | none => simp [messageToAny, pingToPb, nodeToPb, dataToBytes, hid, had, bind, Except.bind, Except.map] at ha'
    | some ba =>
      have ea : messageToAny CI CA (.dead { incarnation := inc, node := id, src := id } : Message I A) =
          .ok (.dead { incarnation := some inc, node := some bi, src := some bi }) := by
        simp [messageToAny, badToPb, dataToBytes, hid, bind, Except.bind, Except.map, pure, Except.pure]
      have ep : messageToAny CI CA (.ping { seq := 2 ^ 32 - 1, source := { id, addr }, target := { id, addr } }) =
          .ok (.ping { seq := some (2 ^ 32 - 1), source := some { id := some bi, addr := some ba }
                       target := some { id := some bi, addr := some ba } }) := by
        simp [messageToAny, pingToPb, nodeToPb, dataToBytes, hid, had, bind, Except.bind, Except.map, pure, Except.pure]
      refine shorter ea ?_ h hn
      intro a2 ha2
      rw [ep] at ha2
      cases ha2
      show (encodeFields [(1, .varint inc), (2, .len bi), (3, .len bi)]).length ≤
        (encodeFields [(1, .varint (2 ^ 32 - 1)), (2, .len (encodeFields [(1, .len bi), (2, .len ba)])),
          (3, .len (encodeFields [(1, .len bi), (2, .len ba)]))]).length
      have h1 := varintLen_top hs
      have e0 : (encodeFields []).length = 0 := rfl
      have hn : bi.length ≤ (encodeFields [(1, .len bi), (2, .len ba)]).length := by
        rw [encodeFields_length_cons, encodeField_len_length _ _ (by omega)]; omega
      have h2 := varintLen_mono hn
      simp only [encodeFields_length_cons (_, _) (_ :: _), encodeFields_length_cons (_, _) [],
        encodeField_len_length 2 _ (by omega), encodeField_len_length 3 _ (by omega),
        encodeField_varint_length 1 _ (by omega), e0] at *
      omega
end Verif

namespace Verif.Ep
open Verif Core Spec
variable {I A : Type} [DecidableEq I] [DecidableEq A]
variable {cfg : Cfg I A} {env : Env I A}

/-- What the construction checks about the MTU. -/
structure MtuOk (cfg : Cfg I A) (env : Env I A) : Prop where
  min : GOSSIP_MTU_MIN ≤ cfg.gossipMtu
  max : cfg.gossipMtu ≤ MAX_GOSSIP_MTU
  ping : wireLen env.CI env.CA (.ping { seq := 2 ^ 32 - 1, source := localNode cfg, target := localNode cfg }) ≤ cfg.gossipMtu
  ack : wireLen env.CI env.CA (.ack (2 ^ 32 - 1) [] : Message I A) ≤ cfg.gossipMtu

omit [DecidableEq I] [DecidableEq A] in
theorem encodeOutgoing_none (m : Message I A) : encodeOutgoing env.CI env.CA none m = encodeTyped env.CI env.CA m := by
  unfold encodeOutgoing
  cases encodeTyped env.CI env.CA m <;> rfl

theorem tryNew_mtu {now : Nat} {e0 : Ep I A} (h : tryNew cfg env now = .ok e0) : MtuOk cfg env := by
  unfold tryNew at h
  dsimp only at h
  split at h
  · cases h
  split at h
  · cases h
  split at h
  · cases h
  rename_i hmin
  split at h
  · cases h
  rename_i hmax
  split at h
  · cases h
  split at h
  · cases h
  rename_i req hreq
  split at h
  · cases h
  rename_i hle
  clear h
  unfold mandatoryLen at hreq
  simp only [encodeOutgoing_none] at hreq
  cases h1 : encodeTyped env.CI env.CA (.ping { seq := 2 ^ 32 - 1, source := localNode cfg, target := localNode cfg }) with
  | error _ => rw [h1] at hreq; simp at hreq
  | ok b1 =>
    cases h2 : encodeTyped env.CI env.CA (.ack (2 ^ 32 - 1) [] : Message I A) with
    | error _ => rw [h1, h2] at hreq; simp at hreq
    | ok b2 =>
      rw [h1, h2] at hreq
      dsimp only at hreq
      split at hreq
      · rename_i a b c ha hb hc
        cases ha; cases hc; cases hreq
        have hm := Nat.le_max_left b1.length (Nat.max b b2.length)
        have hm' := Nat.le_trans (Nat.le_max_right b b2.length) (Nat.le_max_right b1.length (Nat.max b b2.length))
        have hle' : Nat.max b1.length (Nat.max b b2.length) ≤ cfg.gossipMtu := by omega
        refine ⟨by omega, by omega, ?_, ?_⟩
        · rw [wireLen_ok h1]; exact Nat.le_trans hm hle'
        · rw [wireLen_ok h2]; exact Nat.le_trans hm' hle'
      · cases hreq

theorem reachable_mtu {e : Ep I A} (h : Reachable cfg env e) : MtuOk cfg env := by
  obtain ⟨now, e0, ops, h0, _⟩ := h
  exact tryNew_mtu h0

omit [DecidableEq I] [DecidableEq A] in
theorem MtuOk.lt (h : MtuOk cfg env) : cfg.gossipMtu < U64_MAX := by
  have := h.max; unfold MAX_GOSSIP_MTU at this; unfold U64_MAX; omega

omit [DecidableEq I] [DecidableEq A] in
theorem fits_packet (h : MtuOk cfg env) {m : Message I A} (hm : wireLen env.CI env.CA m ≤ cfg.gossipMtu) (dst : A) :
    Fits cfg env (.packet dst m) := by
  obtain ⟨b, hb, hl⟩ := ok_of_wireLen (Nat.lt_of_le_of_lt hm h.lt)
  exact ⟨b, hb, by omega⟩

omit [DecidableEq I] [DecidableEq A] in
theorem wireLen_of_fits {m : Message I A} {dst : A} (h : Fits cfg env (.packet dst m)) :
    wireLen env.CI env.CA m ≤ cfg.gossipMtu := by
  obtain ⟨b, hb, hl⟩ := h
  rw [wireLen_ok hb]; exact hl

omit [DecidableEq I] [DecidableEq A] in
theorem fits_compound (h : MtuOk cfg env) {ms : List (Message I A)} (h2 : 2 ≤ ms.length)
    (hs : (ms.map (partLen env.CI env.CA)).sum ≤ compoundBudget cfg) (dst : A) : Fits cfg env (.compound dst ms) := by
  have h1 := h.min
  have h3 := h.max
  unfold GOSSIP_MTU_MIN at h1
  unfold MAX_GOSSIP_MTU at h3
  unfold compoundBudget COMPOUND_TAG_LEN COMPOUND_MAX_COUNT_PREFIX_LEN at hs
  obtain ⟨b, hb, hl⟩ := compound_ok (CI := env.CI) (CA := env.CA) h2 (n := cfg.gossipMtu - 6) (by omega) hs
  exact ⟨b, hb, by omega⟩

omit [DecidableEq I] [DecidableEq A] in
theorem fits_datagram (h : MtuOk cfg env) {ms : List (Message I A)} {dst : A} {t : Transmit I A}
    (ht : datagram dst ms = some t)
    (hs : (ms.map (partLen env.CI env.CA)).sum ≤ compoundBudget cfg ∨
      ms.length ≤ 1 ∧ ∀ m ∈ ms, wireLen env.CI env.CA m ≤ cfg.gossipMtu) : Fits cfg env t := by
  match ms, ht with
  | [m], ht =>
    cases ht
    refine fits_packet h ?_ dst
    rcases hs with hs | ⟨_, hs⟩
    · simp only [List.map_cons, List.map_nil, List.sum_cons, List.sum_nil] at hs
      unfold partLen compoundBudget at hs
      omega
    · exact hs m (by simp)
  | a :: b :: l, ht =>
    cases ht
    rcases hs with hs | ⟨hs, _⟩
    · exact fits_compound h (by simp) hs dst
    · simp at hs

omit [DecidableEq I] [DecidableEq A] in
theorem users_part (h : MtuOk cfg env) {l : List Bytes} {limit : Nat} (hl : limit ≤ compoundBudget cfg)
    (hs : (l.map (fun b => min b.length U64_MAX + USER_PART_OVERHEAD)).sum ≤ limit) :
    ((l.map (Message.userData (I := I) (A := A))).map (partLen env.CI env.CA)).sum ≤
      (l.map (fun b => min b.length U64_MAX + USER_PART_OVERHEAD)).sum := by
  have h3 := h.max
  unfold MAX_GOSSIP_MTU at h3
  have hb : compoundBudget cfg ≤ 65507 := by unfold compoundBudget; omega
  rw [List.map_map]
  refine List.sum_le_sum ?_
  intro b hb'
  have := List.le_sum_of_mem (List.mem_map_of_mem (f := fun b : Bytes => min b.length U64_MAX + USER_PART_OVERHEAD) hb')
  unfold USER_PART_OVERHEAD COMPOUND_MAX_PART_PREFIX_LEN U64_MAX at *
  have hle : b.length + 11 < 2 ^ 21 := by omega
  have := userData_part (CI := env.CI) (CA := env.CA) hle
  show partLen env.CI env.CA (.userData b) ≤ _
  omega

omit [DecidableEq I] [DecidableEq A] in
theorem claims_part {l : List (Message I A)} {limit : Nat} (hl : limit ≤ 65507)
    (hs : (l.map (fun m => wireLen env.CI env.CA m + COMPOUND_MAX_PART_PREFIX_LEN)).sum ≤ limit) :
    (l.map (partLen env.CI env.CA)).sum ≤
      (l.map (fun m => wireLen env.CI env.CA m + COMPOUND_MAX_PART_PREFIX_LEN)).sum := by
  refine List.sum_le_sum ?_
  intro m hm
  have := List.le_sum_of_mem (List.mem_map_of_mem
    (f := fun m => wireLen env.CI env.CA m + COMPOUND_MAX_PART_PREFIX_LEN) hm)
  exact partLen_le (by omega)

omit [DecidableEq A] in
theorem drainGossip_fits (h : MtuOk cfg env) {e : Ep I A} (hc : ClaimsOk env e.core.bcast) (hu : UserOk cfg e.user)
    {dst : A} {t : Transmit I A} (ht : datagram dst (e.drainGossip cfg env).2 = some t) : Fits cfg env t := by
  have hb : compoundBudget cfg ≤ 65507 := by
    have h3 := h.max
    unfold MAX_GOSSIP_MTU at h3
    unfold compoundBudget; omega
  refine fits_datagram h ht ?_
  unfold drainGossip
  dsimp only
  split
  · right
    obtain ⟨_, h1, h2⟩ := BQueue.takeOne_all (ops := claimOps (wireLen env.CI env.CA)) hc e.core.members.length cfg.gossipMtu
    refine ⟨by simpa using h1, ?_⟩
    intro m hm
    obtain ⟨x, hx, rfl⟩ := List.mem_map.1 hm
    have := h2 x hx
    rw [← this.1.2]; exact this.2
  · left
    have hd := BQueue.takeMeasured_all (ops := claimOps (wireLen env.CI env.CA)) hc e.core.members.length
      COMPOUND_MAX_PART_PREFIX_LEN (compoundBudget cfg)
    split
    · obtain ⟨_, _, h3⟩ := drainUser_ok (cfg := cfg) (e := { e with core := { e.core with bcast :=
        (e.core.bcast.takeMeasured (claimOps (wireLen env.CI env.CA)) e.core.members.length
          COMPOUND_MAX_PART_PREFIX_LEN (compoundBudget cfg)).s } }) hu e.core.members.length (compoundBudget cfg)
      exact Nat.le_trans (users_part h (Nat.le_refl _) h3) h3
    · generalize e.core.bcast.takeMeasured (claimOps (wireLen env.CI env.CA)) e.core.members.length
          COMPOUND_MAX_PART_PREFIX_LEN (compoundBudget cfg) = d at hd
      obtain ⟨_, _, h3⟩ := drainUser_ok (cfg := cfg) (e := { e with core := { e.core with bcast := d.s } }) hu
        e.core.members.length (compoundBudget cfg - d.used)
      have h4 := users_part (env := env) h (Nat.sub_le _ _) h3
      have h5 : ((d.sent.map (fun x => x.broadcast.2)).map
          (fun m => wireLen env.CI env.CA m + COMPOUND_MAX_PART_PREFIX_LEN)).sum = d.used := by
        rw [hd.used, List.map_map]
        congr 1
        apply List.map_congr_left
        intro x hx
        show wireLen env.CI env.CA x.broadcast.2 + _ = _
        rw [(hd.sent x hx).2]
      have hle := hd.le
      have h6 := claims_part (env := env) (l := d.sent.map (fun x => x.broadcast.2)) (limit := compoundBudget cfg) hb
        (by rw [h5]; exact hle)
      rw [List.map_append, List.sum_append]
      rw [h5] at h6
      have h7 := Nat.le_trans h4 h3
      exact Nat.le_trans (Nat.add_le_add h6 h7) (by omega)

/-! ### Leaving -/

theorem act_inc {c : Core I A} (h : Good cfg c) (hi : c.incarnation < 2 ^ 32) (x : Act I A) :
    (act cfg env c x).incarnation < 2 ^ 32 := by
  obtain ⟨m, hm, hlo⟩ := h.inv.loc
  obtain ⟨m', hm', hlo'⟩ := (h.act (env := env) x).inv.loc
  have hc := act_change (env := env) h x cfg.localId
  rw [hm, hm'] at hc
  rw [← hlo'.inc]
  have hmi : m.incarnation < 2 ^ 32 := by rw [hlo.inc]; exact hi
  have hp : ∀ n : Nat, n % 2 ^ 32 < 2 ^ 32 := fun n => Nat.mod_lt _ (by omega)
  generalize ho : some m' = o at hc
  generalize ho1 : some m = o1 at hc
  cases hc with
  | same => subst ho1; cases ho; exact hmi
  | refuted m2 acc =>
    cases ho
    show refuteInc _ _ < _
    unfold refuteInc
    split <;> exact hp _
  | metadata md m2 => cases ho; exact hp _
  | left now m2 => cases ho; exact hi
  | reaped => cases ho
  | _ => simp_all

theorem reachable_inc (hc : cfg.initialIncarnation < 2 ^ 32) {e : Ep I A} (h : Reachable cfg env e) :
    e.core.incarnation < 2 ^ 32 :=
  (reachable_induct (P := fun e => Good cfg e.core ∧ e.core.incarnation < 2 ^ 32) h
    (fun now e0 h0 => by rw [tryNew_core h0]; exact ⟨good_init now, hc⟩)
    (fun e op _ hg => ⟨(step_acts e op).good hg.1,
      (step_acts e op).inductGood (Q := fun c => c.incarnation < 2 ^ 32) hg.1 hg.2
        (fun _ x _ hc hq => act_inc hc hq x)⟩)).2

theorem farewell_fits (h : MtuOk cfg env) {c : Core I A} (hg : Good cfg c) (hi : c.incarnation < 2 ^ 32) (dst : A) :
    Fits cfg env (.packet dst (.dead (farewellClaim cfg c))) := by
  obtain ⟨m, hm, hlo⟩ := hg.inv.loc
  refine fits_packet h (dead_len (addr := cfg.advertise) ?_ h.ping h.lt) dst
  rw [hm]
  show Nat.max m.incarnation c.incarnation < _
  rw [hlo.inc]
  exact Nat.max_lt.2 ⟨hi, hi⟩

omit [DecidableEq I] [DecidableEq A] in
theorem farewells_fit (h : MtuOk cfg env) {e : Ep I A} (hu : UserOk cfg e.user) (dead : BadState I) (f : Option Bytes)
    (hne : (e.farewellPayloads cfg env dead f).2.isEmpty = false) (dst : A) :
    Fits cfg env (.compound dst ((e.farewellPayloads cfg env dead f).2.map Message.userData ++ [.dead dead])) := by
  have h3 := h.max
  unfold MAX_GOSSIP_MTU at h3
  have hb : compoundBudget cfg ≤ 65507 := by unfold compoundBudget; omega
  have hdead : wireLen env.CI env.CA (.dead dead : Message I A) + COMPOUND_MAX_PART_PREFIX_LEN ≤ compoundBudget cfg →
      partLen env.CI env.CA (.dead dead : Message I A) ≤
        wireLen env.CI env.CA (.dead dead : Message I A) + COMPOUND_MAX_PART_PREFIX_LEN :=
    fun h => partLen_le (by omega)
  refine fits_compound h ?_ ?_ dst
  · have : 0 < (e.farewellPayloads cfg env dead f).2.length := List.length_pos_iff.2 (by simpa using hne)
    simp only [List.length_append, List.length_map, List.length_cons, List.length_nil]
    omega
  · rw [List.map_append, List.sum_append]
    simp only [List.map_cons, List.map_nil, List.sum_cons, List.sum_nil, Nat.add_zero]
    have key : ∀ n, n ≤ compoundBudget cfg -
        (wireLen env.CI env.CA (.dead dead : Message I A) + COMPOUND_MAX_PART_PREFIX_LEN) →
        (((e.drainUser e.core.members.length n).2.map (Message.userData (I := I) (A := A))).map
          (partLen env.CI env.CA)).sum ≤ n := by
      intro n hn
      obtain ⟨_, _, h3⟩ := drainUser_ok (cfg := cfg) hu e.core.members.length n
      exact Nat.le_trans (users_part (env := env) h (Nat.le_trans hn (Nat.sub_le _ _)) h3) h3
    have hB : (farewellBudget cfg env dead f = (compoundBudget cfg -
          (wireLen env.CI env.CA (.dead dead : Message I A) + COMPOUND_MAX_PART_PREFIX_LEN), none)) ∨
        ∃ fw, wireLen env.CI env.CA (.userData fw : Message I A) + COMPOUND_MAX_PART_PREFIX_LEN ≤
          compoundBudget cfg - (wireLen env.CI env.CA (.dead dead : Message I A) + COMPOUND_MAX_PART_PREFIX_LEN) ∧
          farewellBudget cfg env dead f = (compoundBudget cfg -
            (wireLen env.CI env.CA (.dead dead : Message I A) + COMPOUND_MAX_PART_PREFIX_LEN) -
            (wireLen env.CI env.CA (.userData fw : Message I A) + COMPOUND_MAX_PART_PREFIX_LEN), some fw) := by
      unfold farewellBudget
      dsimp only
      cases f with
      | none => exact .inl rfl
      | some fw =>
        dsimp only
        split
        · rename_i hfw; exact .inr ⟨fw, hfw, rfl⟩
        · exact .inl rfl
    revert hne
    unfold farewellPayloads
    generalize farewellBudget cfg env dead f = B at hB
    rcases hB with rfl | ⟨fw, hfw, rfl⟩
    · dsimp only
      split
      · intro hne; cases hne
      · rename_i hz
        intro _
        have := key _ (Nat.le_refl _)
        simp only [and_true] at hz
        simp only [Option.toList_none, List.nil_append]
        have := hdead (by omega)
        omega
    · dsimp only
      rw [if_neg (by simp)]
      intro _
      have h1 := key (compoundBudget cfg -
          (wireLen env.CI env.CA (.dead dead : Message I A) + COMPOUND_MAX_PART_PREFIX_LEN) -
          (wireLen env.CI env.CA (.userData fw : Message I A) + COMPOUND_MAX_PART_PREFIX_LEN)) (Nat.sub_le _ _)
      have h2 := partLen_le (CI := env.CI) (CA := env.CA) (m := (.userData fw : Message I A)) (by omega)
      have h4 : 0 < COMPOUND_MAX_PART_PREFIX_LEN := by decide
      have := hdead (by omega)
      simp only [Option.toList_some, List.singleton_append, List.map_cons, List.sum_cons]
      omega

theorem leave_fits (h : MtuOk cfg env) {e : Ep I A} (hg : Good cfg e.core) (hi : e.core.incarnation < 2 ^ 32)
    (hu : UserOk cfg e.user) (hr : e.core.lifecycle = .running) (now : Nat) (f : Option Bytes) :
    ∀ t ∈ (e.leaveWith cfg env now f).net.transmits, Fits cfg env t := by
  unfold leaveWith
  rw [if_neg (by simp [hr])]
  dsimp only
  split
  · intro t ht; cases ht
  · dsimp only
    have key : ∀ (peers : List A) (e1 : Ep I A) (ps : List Bytes) (d : BadState I),
        (∀ t ∈ e1.net.transmits, Fits cfg env t) → (∀ dst, Fits cfg env (.packet dst (.dead d))) →
        (ps.isEmpty = false → ∀ dst, Fits cfg env (.compound dst (ps.map Message.userData ++ [.dead d]))) →
        ∀ t ∈ (e1.sendFarewells peers ps d).net.transmits, Fits cfg env t := by
      intro peers e1 ps d h1 h2 h3
      unfold sendFarewells
      induction peers generalizing e1 with
      | nil => exact h1
      | cons x l ih =>
        rw [List.foldl_cons]
        refine ih _ ?_
        cases hp : ps.isEmpty
        · intro t ht
          rcases List.mem_append.1 ht with ht | ht
          · exact h1 t ht
          · rw [List.mem_singleton.1 ht]; exact h3 hp x
        · intro t ht
          rcases List.mem_append.1 ht with ht | ht
          · exact h1 t ht
          · rw [List.mem_singleton.1 ht]; exact h2 x
    refine key _ _ _ _ ?_ (fun dst => farewell_fits h hg hi dst) (fun hne dst => farewells_fit h ?_ _ f hne dst)
    · intro t ht
      dsimp only at ht
      rw [farewellPayloads_net] at ht
      cases ht
    · exact hu

/-! ### Every datagram -/

omit [DecidableEq I] [DecidableEq A] in
theorem snd_fits (h : MtuOk cfg env) {op : Op I A} {a : Ep I A} {t : Transmit I A} (hs : Snd cfg env op a t) (hq : SeqU32 op)
    (hp : wireLen env.CI env.CA (.ack (2 ^ 32 - 1) a.net.ackPayload : Message I A) ≤ cfg.gossipMtu) :
    Fits cfg env t := by
  have hmin := h.min
  have hmax := h.max
  unfold GOSSIP_MTU_MIN at hmin
  unfold MAX_GOSSIP_MTU at hmax
  cases hs with
  | ack src p now payload hpay =>
    refine fits_packet h ?_ _
    rename_i hh
    rcases hh with hh | hh
    · rw [hh]; exact ack_len hq (Nat.le_refl _) hp h.lt
    · rw [hh]; exact ack_len hq (Nat.le_refl _) h.ack h.lt
  | refuse src p now => exact fits_packet h (nack_len hq h.ack h.lt) _
  | relay src p now _ msg hf hm => exact fits_packet h (by simpa [fitsMtu] using hf) _
  | probe _ now ho _ dst msg hf hm => exact fits_packet h (by simpa [fitsMtu] using hf) _
  | probeBoth _ now ho _ dst p s hf =>
    refine fits_compound h (by simp) ?_ _
    unfold COMPOUND_TAG_LEN COMPOUND_MAX_COUNT_PREFIX_LEN COMPOUND_MAX_PART_PREFIX_LEN at hf
    have h1 := partLen_le (CI := env.CI) (CA := env.CA) (m := .ping p) (by omega)
    have h2 := partLen_le (CI := env.CI) (CA := env.CA) (m := (.suspect s : Message I A)) (by omega)
    unfold COMPOUND_MAX_PART_PREFIX_LEN at h1 h2
    simp only [List.map_cons, List.map_nil, List.sum_cons, List.sum_nil]
    unfold compoundBudget COMPOUND_TAG_LEN COMPOUND_MAX_COUNT_PREFIX_LEN
    omega
  | ping node now _ p b hb hl => exact ⟨b, hb, hl⟩
  | user dst data _ ho _ hf => exact fits_packet h hf _
  | users dst many h2 _ hf =>
    refine fits_compound h ?_ ?_ _
    · simpa using h2
    · have hs : ((many.map (Message.userData (I := I) (A := A))).map
          (fun m => wireLen env.CI env.CA m + COMPOUND_MAX_PART_PREFIX_LEN)).sum =
          (many.map (fun p => COMPOUND_MAX_PART_PREFIX_LEN + wireLen env.CI env.CA (.userData p : Message I A))).sum := by
        rw [List.map_map]
        congr 1
        apply List.map_congr_left
        intro x _
        exact Nat.add_comm _ _
      have h1 := claims_part (env := env) (l := many.map (Message.userData (I := I) (A := A))) (limit := cfg.gossipMtu) hmax
        (by rw [hs]; exact Nat.le_trans (Nat.le_add_left _ _) hf)
      rw [hs] at h1
      unfold compoundBudget
      omega

/-- The numbers under which relays answer. -/
def FwdU32 (n : Net I A) : Prop := ∀ s f, n.forwards.get? s = some f → f.requesterSeq < 2 ^ 32

theorem micro_fwdU32 {op : Op I A} {late : Bool} {a b : Ep I A} (hq : SeqU32 op) (h : FwdU32 a.net)
    (hm : Micro cfg env op late a b) : FwdU32 b.net := by
  intro s f hf
  have same : b.net.forwards = a.net.forwards → f.requesterSeq < 2 ^ 32 := fun he => h s f (by rw [← he]; exact hf)
  have eras : ∀ s', b.net.forwards = a.net.forwards.erase s' → f.requesterSeq < 2 ^ 32 := by
    intro s' he
    rw [he, Map.get?_erase] at hf
    split at hf
    · cases hf
    · exact h s f hf
  cases hm with
  | core x hx => exact same rfl
  | aux _ hc hn hf hu => exact same hn.forwards
  | send t ht => exact same rfl
  | dial id peer d hr hd => exact same rfl
  | start seq p a hs hr hw hlt => exact same rfl
  | alloc seq hs => exact same rfl
  | dispatched seq b hlt => exact same rfl
  | fail seq p now hp hw hr hlt =>
    refine same ?_
    rw [terminate_net a seq now p hp]
    unfold discardProbe; dsimp only; split <;> rfl
  | done seq p direct payload now hp hd hw hr hlt =>
    refine same ?_
    rw [complete_net a seq now direct payload p hp hd]
  | nack src seq now ho =>
    refine same ?_
    unfold handleNack; (repeat' split) <;> rfl
  | fan seq p now peers st ho hp hk hph hd hf hl hnd ha hfit hlt => exact same rfl
  | fwd seq src p now ho hs hsrc hl hnew =>
    subst ho
    have hf' : (a.net.forwards.insert seq _).get? s = some f := hf
    rw [Map.get?_insert] at hf'
    split at hf'
    · cases hf'; exact hq
    · exact h s f hf'
  | fwdAnswer seq f hf payload now ho hd => exact eras seq rfl
  | fwdExpire seq f hf now ho hd => exact eras seq rfl
  | intent i hr => exact same rfl
  | intentDial i hr hw => exact same rfl
  | skipId => exact same rfl
  | unintent id hw => exact same rfl
  | retire seq => exact same (by unfold retireFallback; rfl)
  | gossip targets now ho hr =>
    obtain ⟨ts, h5, _, h6⟩ := sendAll_net (a.drainGossip cfg env).1 targets (a.drainGossip cfg env).2
    exact same (by rw [h5, (drainGossip_net a).1])
  | leave now f ho hr =>
    obtain ⟨ts, hts⟩ := leaveWith_net (cfg := cfg) (env := env) a now f hr
    exact same (by rw [hts])
  | poll ho => exact same (by rw [pollTransmit_net])

/-- What keeps datagrams small. -/
structure SizeInv (cfg : Cfg I A) (env : Env I A) (ops : List (Op I A)) (e : Ep I A) : Prop where
  out : ∀ t ∈ e.net.transmits, Fits cfg env t ∨ ForeignPayload cfg env ops t
  fwd : FwdU32 e.net
  ack : wireLen env.CI env.CA (.ack (2 ^ 32 - 1) e.net.ackPayload : Message I A) ≤ cfg.gossipMtu

theorem ForeignPayload.mono {ops ops' : List (Op I A)} (h : ∀ op ∈ ops, op ∈ ops') {t : Transmit I A}
    (ht : ForeignPayload cfg env ops t) : ForeignPayload cfg env ops' t := by
  obtain ⟨dst, s, src, s', p, now, h1, h2, h3⟩ := ht
  exact ⟨dst, s, src, s', p, now, h1, h _ h2, h3⟩

theorem micro_size (h : MtuOk cfg env) {ops : List (Op I A)} {op : Op I A} {late : Bool} {a b : Ep I A} (hq : SeqU32 op)
    (ho : op ∈ ops) (hg : Good cfg a.core) (hi : a.core.incarnation < 2 ^ 32) (hc : ClaimsOk env a.core.bcast)
    (hu : UserOk cfg a.user) (hs : SizeInv cfg env ops a) (hm : Micro cfg env op late a b) : SizeInv cfg env ops b := by
  refine ⟨?_, micro_fwdU32 hq hs.fwd hm, ?_⟩
  · rcases micro_tx_any hm with ⟨l, h1, h2⟩ | ⟨now, f, _, hr, rfl⟩ | ⟨_, rfl⟩
    rotate_left
    · exact fun t ht => .inl (leave_fits h hg hi hu hr now f t ht)
    · rw [pollTransmit_net]
      exact fun t ht => hs.out t (List.mem_of_mem_tail ht)
    rw [h1]
    intro t ht
    rcases List.mem_append.1 ht with ht | ht
    · exact hs.out t ht
    cases h2 t ht with
    | snd _ hsnd => exact .inl (snd_fits h hsnd hq hs.ack)
    | fan seq p now dst ho hp hf => exact .inl (fits_packet h (by simpa [fitsMtu] using hf) _)
    | answer seq f payload now hf ho' hd =>
      by_cases hfit : Fits cfg env (.packet f.replyTo (.ack (2 ^ 32 - 1) payload))
      · exact .inl (fits_packet h (ack_len (hs.fwd _ _ hf) (Nat.le_refl _) (wireLen_of_fits hfit) h.lt) _)
      · exact .inr ⟨_, _, _, _, payload, now, rfl, ho' ▸ ho, hfit⟩
    | expire seq f now hf ho hd => exact .inl (fits_packet h (nack_len (hs.fwd _ _ hf) h.ack h.lt) _)
    | gossip dst now ho _ hd => exact .inl (drainGossip_fits h hc hu hd)
  · rcases micro_payload hm with hp | ⟨x, ho, _, hf, hp⟩
    · rw [hp]; exact hs.ack
    · rw [hp]; exact hf

theorem run_size (hinc : cfg.initialIncarnation < 2 ^ 32) {now : Nat} {e0 : Ep I A} (h0 : tryNew cfg env now = .ok e0)
    (ops : List (Op I A)) (hq : ∀ op ∈ ops, SeqU32 op) : SizeInv cfg env ops (run cfg env e0 ops) := by
  have hmtu := tryNew_mtu h0
  have hr0 := reachable_new h0
  induction ops using snoc_induction with
  | h0 =>
    show SizeInv cfg env [] e0
    have hc : ∀ e : Ep I A, e.refreshCache.net = e.net := by intro e; unfold refreshCache; split <;> rfl
    rw [tryNew_eq h0]
    refine ⟨?_, ?_, ?_⟩
    · rw [hc]; intro t ht; cases ht
    · rw [hc]; intro s f hf; cases hf
    · rw [hc]; exact hmtu.ack
  | h1 ops op ih =>
    have ih := ih (fun o ho => hq o (List.mem_append_left _ ho))
    have hr := reachable_run hr0 ops
    rw [run_snoc]
    generalize run cfg env e0 ops = e at ih hr
    have hop : op ∈ ops ++ [op] := by simp
    have hstart : SizeInv cfg env (ops ++ [op]) e :=
      ⟨fun t ht => (ih.out t ht).imp id (ForeignPayload.mono (fun o ho => List.mem_append_left _ ho)), ih.fwd, ih.ack⟩
    exact (step_micro_induct (Q := fun x => x.core.incarnation < 2 ^ 32 ∧ ClaimsOk env x.core.bcast ∧ UserOk cfg x.user ∧
      SizeInv cfg env (ops ++ [op]) x) hr op ⟨reachable_inc hinc hr, reachable_claims hr, reachable_user hr, hstart⟩
      (fun _ a b hg _ hx hm => ⟨
        (micro_acts hm).inductGood (Q := fun c => c.incarnation < 2 ^ 32) hg hx.1 (fun _ y _ hc hz => act_inc hc hz y),
        micro_claims hm hg hx.2.1, micro_user hx.2.2.1 hm,
        micro_size hmtu (hq op hop) hop hg hx.1 hx.2.1 hx.2.2.1 hx.2.2.2 hm⟩)).2.2.2
end Verif.Ep
