import Verif.Proof.CoordCalm
import Verif.Proof.BroadcastRun
/-
What an exchange holds, in terms of everything its connection delivered.
-/
namespace Verif
open Spec

section
variable {I A : Type} [DecidableEq I] {CI : DataCodec I} {CA : DataCodec A}

theorem units_nil {B : Backends} {ring : Option Keyring} {max : Nat} {w D : Bytes}
    (h : Units B ring max w D) (hw : w = []) : D = [] := by
  cases h with
  | nil => rfl
  | snoc w p u q h hu =>
    obtain ⟨len, body, ls, h1, h2, _⟩ := hu
    have h3 : u = [] := (List.append_eq_nil_iff.1 hw).2
    have := h2.1.length_pos
    rw [h3] at h1
    have h4 : len = [] := (List.append_eq_nil_iff.1 h1.symm).1
    rw [h4] at this
    simp at this

theorem parse_nil (m : Message I A) : parseMessage CI CA [] ≠ .ok m := by
  simp [parseMessage, decodeMessage, decodePlainFrame]

theorem Spec.Delivers.ne_nil {s : Stream I A} {D : Bytes} {ev : PayloadEvent I A}
    (h : Delivers CI CA s D ev) : D ≠ [] := by
  intro hD
  subst hD
  have h := h.2
  split at h
  · rcases h with ⟨_, h, _⟩ | ⟨_, h, _⟩ <;> exact absurd h (parse_nil _)
  · obtain ⟨_, h, _⟩ := h; exact absurd h (parse_nil _)
  · obtain ⟨_, _, h, _⟩ := h; exact absurd h (parse_nil _)
  · exact h
end

namespace Bridge
variable {I A : Type} [DecidableEq I] {env : Env I A} {X : XCfg} {T : TEnv}

/-- The pipe and the stream of an exchange hold exactly what its connection delivered (`W`). -/
def Tracks (env : Env I A) (X : XCfg) (T : TEnv) (opened : Stream I A → Prop) (W : Bytes) (b : Bridge I A) : Prop :=
  ∃ (role : GateRole) (r : LRun), r.s = b.records ∧ r.failed = false ∧
    LInv (effectiveLabel X.label) X.skipLabel role W r ∧
    match b.stream with
    | none => r.delivered = [] ∧ b.accum = []
    | some s => ∃ s0 D U, opened s0 ∧ Units T.B b.ring b.max U D ∧ r.delivered = U ++ b.accum ∧
        Fed env.CI env.CA s0 D s

/-- The connection ended, and what it delivered is one message that means `ev`. -/
def Auth (env : Env I A) (X : XCfg) (T : TEnv) (opened : Stream I A → Prop) (ring : Option Keyring) (max : Nat)
    (W : Bytes) (E : Bool) (ev : PayloadEvent I A) : Prop :=
  E = true ∧ ∃ body D s0, Behind X.label X.skipLabel W body ∧ Units T.B ring max body D ∧ opened s0 ∧
    Delivers env.CI env.CA s0 D ev

structure BInv (env : Env I A) (X : XCfg) (T : TEnv) (opened : Stream I A → Prop) (ring : Option Keyring)
    (max : Nat) (W : Bytes) (E : Bool) (b : Bridge I A) : Prop where
  eof : b.pendingEof = true → E = true
  ring_ : ¬ b.Late → b.ring = ring
  max_ : ¬ b.Late → b.max = max
  open_ : ¬ b.Late → Tracks env X T opened W b
  settled : b.phase = .recvClosed → ∃ s, b.stream = some s ∧ Settled s
  auth : b.Late → ∀ ev ∈ b.evs, Auth env X T opened ring max W E ev

variable {opened opened' : Stream I A → Prop} {ring : Option Keyring} {max : Nat} {W W' : Bytes} {E E' : Bool}
  {b b' : Bridge I A}

theorem Auth.mono {ev : PayloadEvent I A} (h : Auth env X T opened ring max W E ev)
    (ho : ∀ s, opened s → opened' s) (hE : E = true → E' = true) : Auth env X T opened' ring max W E' ev := by
  obtain ⟨h1, body, D, s0, h2, h3, h4, h5⟩ := h
  exact ⟨hE h1, body, D, s0, h2, h3, ho _ h4, h5⟩

theorem BInv.mono (h : BInv env X T opened ring max W E b) (ho : ∀ s, opened s → opened' s) :
    BInv env X T opened' ring max W E b where
  eof := h.eof
  ring_ := h.ring_
  max_ := h.max_
  open_ := fun hl => by
    obtain ⟨role, r, h1, h2, h3, h4⟩ := h.open_ hl
    refine ⟨role, r, h1, h2, h3, ?_⟩
    cases hs : b.stream with
    | none => rw [hs] at h4; exact h4
    | some s =>
      rw [hs] at h4
      obtain ⟨s0, D, U, h5, h6⟩ := h4
      exact ⟨s0, D, U, ho _ h5, h6⟩
  settled := h.settled
  auth := fun hl ev hev => (h.auth hl ev hev).mono ho id

/-- A late bridge stays late and gains no payload. -/
theorem BInv.lateStep (h : BInv env X T opened ring max W E b) (hl : b.Late) (hl' : b'.Late)
    (hev : ∀ ev ∈ b'.evs, ev ∈ b.evs) (hset : b'.phase = .recvClosed → ∃ s, b'.stream = some s ∧ Settled s)
    (heof : b'.pendingEof = true → E' = true) (hW : W' = W ∨ b.evs = []) (hE : E = true → E' = true) :
    BInv env X T opened ring max W' E' b' where
  eof := heof
  ring_ := fun h => absurd hl' h
  max_ := fun h => absurd hl' h
  open_ := fun h => absurd hl' h
  settled := hset
  auth := fun _ ev he => by
    have h0 := hev ev he
    rcases hW with hW | hW
    · rw [hW]; exact (h.auth hl ev h0).mono (fun _ h => h) hE
    · rw [hW] at h0; cases h0

/-- A failed bridge without payloads. -/
theorem BInv.dead (hf : b'.isFailed = true) (hev : b'.evs = []) (heof : b'.pendingEof = true → E' = true) :
    BInv env X T opened ring max W' E' b' where
  eof := heof
  ring_ := fun h => absurd (late_of_failed hf) h
  max_ := fun h => absurd (late_of_failed hf) h
  open_ := fun h => absurd (late_of_failed hf) h
  settled := fun h => by simp [isFailed, h] at hf
  auth := fun _ ev he => by rw [hev] at he; cases he

theorem fail_eof (b : Bridge I A) (r : LinkFail) : (b.fail r).pendingEof = b.pendingEof := by
  unfold fail; split <;> rfl

theorem failWithRetire_eof (b : Bridge I A) (r : LinkFail) : (b.failWithRetire r).pendingEof = b.pendingEof :=
  fail_eof _ r

theorem BInv.fail (h : BInv env X T opened ring max W E b) (r : LinkFail) :
    BInv env X T opened ring max W E (b.fail r) := by
  by_cases hl : b.Late
  · exact h.lateStep hl (late_of_failed (fail_failed _ _)) (evs_fail b r)
      (fun hp => by have := fail_failed b r; simp [isFailed, hp] at this) (by rw [fail_eof]; exact h.eof) (.inl rfl) id
  · exact .dead (fail_failed _ _) (evs_fail_open r hl) (by rw [fail_eof]; exact h.eof)

theorem late_congr {a b : Bridge I A} (h : a.phase = b.phase) : a.Late ↔ b.Late := by
  unfold Late isTerminal; rw [h]

/-- Input through the pipe and the unit loop. -/
theorem Tracks.data {s s' : Stream I A} {input left : Bytes} {now : Nat} (h : Tracks env X T opened W b)
    (hs : b.stream = some s) (hr : (b.records.recv input).2 = false)
    (hd : drainUnits env.CI env.CA T b.ring b.max now ((b.accum ++ (b.records.recv input).1.read.2).length + 1) s
        (b.accum ++ (b.records.recv input).1.read.2) = (s', left, .all)) :
    Tracks env X T opened (W ++ input)
      { b with records := (b.records.recv input).1.read.1, stream := some s', accum := left } := by
  obtain ⟨role, r, h1, h2, h3, h4⟩ := h
  rw [hs] at h4
  obtain ⟨s0, D, U, h5, h6, h7, h8⟩ := h4
  obtain ⟨w, D', h9, h10, h11⟩ := drainUnits_fed _ hd h6 h8
  have hI := (h3.recv input).nonrecv .read (by simp)
  have e1 : r.step (.recv input) = { r with s := (b.records.recv input).1, failed := false } := by
    simp only [LRun.step, h2, Bool.false_eq_true, if_false, h1]
    rw [← hr]
  have e2 : (r.step (.recv input)).step .read =
      { r with s := (b.records.recv input).1.read.1, failed := false,
               delivered := r.delivered ++ (b.records.recv input).1.read.2 } := by
    rw [e1]; rfl
  rw [e2] at hI
  refine ⟨role, _, rfl, rfl, hI, ?_⟩
  simp only []
  refine ⟨s0, D', U ++ w, h5, h10, ?_, h11⟩
  rw [h7, List.append_assoc, h9, List.append_assoc]

theorem Tracks.write {u : Bytes} (h : Tracks env X T opened W b) (hv : b.records.isHandshaking = false) :
    Tracks env X T opened W { b with records := b.records.write u } := by
  obtain ⟨role, r, h1, h2, h3, h4⟩ := h
  have hI := h3.nonrecv (.write u) (by simp)
  have hv' : r.s.gate.isValidating = false := by rw [h1]; exact hv
  have e : r.step (.write u) = { r with s := b.records.write u, written := r.written ++ u } := by
    simp only [LRun.step, h2, hv', Bool.false_eq_true, if_false]
    rw [h1]
  rw [e] at hI
  exact ⟨role, _, rfl, by exact h2, hI, h4⟩

theorem Tracks.transmit (h : Tracks env X T opened W b) :
    Tracks env X T opened W { b with records := b.records.transmit.1 } := by
  obtain ⟨role, r, h1, h2, h3, h4⟩ := h
  have hI := h3.nonrecv .transmit (by simp)
  have e : r.step .transmit = { r with s := b.records.transmit.1, sent := r.sent ++ b.records.transmit.2 } := by
    simp only [LRun.step, h2, Bool.false_eq_true, if_false, h1]
  rw [e] at hI
  exact ⟨role, _, rfl, by exact h2, hI, h4⟩

/-- The tracked state depends on these parts only. -/
theorem Tracks.congr (h : Tracks env X T opened W b) (h1 : b'.records = b.records) (h2 : b'.stream = b.stream)
    (h3 : b'.accum = b.accum) (h4 : b'.ring = b.ring) (h5 : b'.max = b.max) : Tracks env X T opened W b' := by
  unfold Tracks at *
  rw [h1, h2, h3, h4, h5]; exact h

theorem Tracks.poll {s s' : Stream I A} {now : Nat} {o : Option (List Bytes)} (h : Tracks env X T opened W b)
    (hs : b.stream = some s) (hp : s.pollTransmit now = (s', o)) :
    Tracks env X T opened W { b with stream := some s' } := by
  obtain ⟨role, r, h1, h2, h3, h4⟩ := h
  rw [hs] at h4
  obtain ⟨s0, D, U, h5, h6, h7, h8⟩ := h4
  refine ⟨role, r, h1, h2, h3, s0, D, U, h5, h6, h7, ?_⟩
  have := h8.poll now
  rw [hp] at this
  exact this

theorem linv_ok {lab : Option Bytes} {skip : Bool} {role : GateRole} {r : LRun} (h : LInv lab skip role W r)
    (hf : r.failed = false) (hv : r.s.gate.validated = true) :
    (lab = none → r.delivered ++ r.s.postLabelTail ++ r.s.inbound = W) ∧
    (∀ l, lab = some l → ∃ n, classifyHeader W lab skip = .accepted n ∧
      r.delivered ++ r.s.postLabelTail ++ r.s.inbound = W.drop n) := by
  cases lab with
  | none => exact ⟨fun _ => h.ok hf hv, by simp⟩
  | some l => exact ⟨by simp, fun _ _ => h.ok hf hv⟩

/-- Once everything was taken, what lies behind the label is what went into units. -/
theorem Tracks.behind {s : Stream I A} (h : Tracks env X T opened W b) (hs : b.stream = some s)
    (ha : b.accum = []) (hp : b.records.postLabelTail = []) (hi : b.records.inbound = []) :
    ∃ s0 D U, opened s0 ∧ Units T.B b.ring b.max U D ∧ Fed env.CI env.CA s0 D s ∧
      (D ≠ [] → Behind X.label X.skipLabel W U) := by
  obtain ⟨role, r, h1, h2, h3, h4⟩ := h
  rw [hs] at h4
  obtain ⟨s0, D, U, h5, h6, h7, h8⟩ := h4
  refine ⟨s0, D, U, h5, h6, h8, fun hD => ?_⟩
  rw [ha, List.append_nil] at h7
  have hU : U ≠ [] := fun h => hD (units_nil h6 h)
  have hv : r.s.gate.validated = true := by
    cases hv : r.s.gate.validated with
    | true => rfl
    | false => exact absurd (h7.symm.trans (h3.pend h2 hv).2.2.1) hU
  have hok := linv_ok h3 h2 hv
  have hdel : r.delivered ++ r.s.postLabelTail ++ r.s.inbound = U := by rw [h1, hp, hi, h7]; simp
  rw [hdel] at hok
  have hok1 := hok.1
  have hok2 := hok.2
  unfold Behind
  split
  · next hne => exact (hok1 (by simp [effectiveLabel, hne])).symm
  · next hne => exact (hok1 (by simp [effectiveLabel, hne])).symm
  · next l hl hne =>
    have : effectiveLabel X.label = X.label := by
      rw [hne]
      cases l with
      | nil => exact absurd rfl hl
      | cons => rfl
    obtain ⟨n, h9, h10⟩ := hok2 l (this.trans hne)
    rw [this, hne] at h9
    exact (classify_admits _ _ _ _).1 ⟨n, h9, h10.symm⟩

theorem fed_delivers {CI : DataCodec I} {CA : DataCodec A} {s0 s : Stream I A} {D : Bytes} (h : Fed CI CA s0 D s) (hs : Settled s)
    (hi : s.phase = .inSending → s.inputBuf = []) : ∀ ev ∈ s.endpointEvents, Delivers CI CA s0 D ev := by
  have hst := h.stage
  intro ev hev
  unfold Settled at hs
  cases hp : s.phase <;> rw [hp] at hst hs <;> simp only [] at hst hs
  case outSending k => rw [hst.2.1] at hev; cases hev
  case inSending =>
    obtain ⟨fr, h1, h2⟩ := hst.2.2.1 ev hev
    rw [hi hp, List.append_nil] at h1
    rw [h1]; exact h2
  case done => exact (hst ev hev).2
  case failed e => rw [hst] at hev; cases hev

theorem BInv.pumpIn {s : Stream I A} {input : Bytes} {eof : Bool} {now : Nat}
    (h : BInv env X T opened ring max W E b) (hs : b.stream = some s) (hh : b.phase ≠ .handshaking)
    (ht : b.isTerminal = false) (hq : input = [] ∨ (b.Late → b.evs = [])) (hE : E = true → E' = true)
    (heof : eof = true → E' = true) :
    BInv env X T opened ring max (W ++ input) E' (b.pumpIn env.CI env.CA T s input eof now) := by
  have hc := pumpIn_cases env.CI env.CA T b s input eof now ht
  generalize b.pumpIn env.CI env.CA T s input eof now = b' at hc
  have hpe : b.pendingEof = true → E' = true := fun hp => hE (h.eof hp)
  by_cases hl : b.Late
  · have hrc : b.phase = .recvClosed := by
      rcases hl with h1 | h1
      · exact h1
      · rw [ht] at h1; cases h1
    obtain ⟨s1, hs1, hset⟩ := h.settled hrc
    rw [hs] at hs1
    cases hs1
    have hW : W ++ input = W ∨ b.evs = [] := by
      rcases hq with hq | hq
      · exact .inl (by rw [hq, List.append_nil])
      · exact .inr (hq hl)
    have hfail : ∀ (b1 : Bridge I A) (rs : LinkFail), b1.pendingEof = b.pendingEof →
        (∀ ev ∈ b1.evs, ev ∈ b.evs) →
        BInv env X T opened ring max (W ++ input) E' (b1.failWithRetire rs) := by
      intro b1 rs h1 h2
      refine h.lateStep hl (late_of_failed (failWithRetire_failed _ _))
        (fun ev he => h2 ev (evs_failWithRetire b1 rs ev he)) ?_ ?_ hW hE
      · intro hp
        have := failWithRetire_failed b1 rs
        simp [isFailed, hp] at this
      · rw [failWithRetire_eof, h1]; exact hpe
    have hdr := fun f => drainUnits_settled (CI := env.CI) (CA := env.CA) (T := T) (ring := b.ring) (max := b.max)
      (now := now) f (s := s) (buf := b.accum ++ (b.records.recv input).1.read.2) hset
    have hevs : b.evs = s.endpointEvents := by simp [evs, hs]
    cases hc with
    | rejected => exact hfail _ _ rfl (fun ev he => he)
    | bad s' left d _ hd _ =>
      have h1 := hdr ((b.accum ++ (b.records.recv input).1.read.2).length + 1)
      rw [hd] at h1
      exact hfail _ _ rfl (fun ev he => by rw [hevs]; exact h1.2 ev he)
    | more s' left _ hd _ =>
      have h1 := hdr ((b.accum ++ (b.records.recv input).1.read.2).length + 1)
      rw [hd] at h1
      exact h.lateStep hl (.inl hrc) (fun ev he => by rw [hevs]; exact h1.2 ev he)
        (fun _ => ⟨s', rfl, h1.1⟩) hpe hW hE
    | cut s' left _ hd _ _ =>
      have h1 := hdr ((b.accum ++ (b.records.recv input).1.read.2).length + 1)
      rw [hd] at h1
      exact hfail _ _ rfl (fun ev he => by rw [hevs]; exact h1.2 ev he)
    | refused s' s'' e _ hd _ hh2 =>
      have h1 := hdr ((b.accum ++ (b.records.recv input).1.read.2).length + 1)
      rw [hd] at h1
      have h2 := h1.1.data (CI := env.CI) (CA := env.CA) [] now
      rw [hh2] at h2
      exact hfail _ _ rfl (fun ev he => by rw [hevs]; exact h1.2 ev (h2.2 ev he))
    | ended s' s'' _ hd _ hh2 =>
      have h1 := hdr ((b.accum ++ (b.records.recv input).1.read.2).length + 1)
      rw [hd] at h1
      have h2 := h1.1.data (CI := env.CI) (CA := env.CA) [] now
      rw [hh2] at h2
      have e : (({ b with records := (b.records.recv input).1.read.1, stream := some s'', accum := [] } : Bridge I A).observeRecvFin) =
          { b with records := (b.records.recv input).1.read.1, stream := some s'', accum := [] } := by
        simp only [observeRecvFin, hrc]
      rw [e]
      exact h.lateStep hl (.inl hrc) (fun ev he => by rw [hevs]; exact h1.2 ev (h2.2 ev he))
        (fun _ => ⟨s'', rfl, h2.1⟩) hpe hW hE
  · have hfail : ∀ (b1 : Bridge I A) (rs : LinkFail), b1.pendingEof = b.pendingEof → b1.phase = b.phase →
        BInv env X T opened ring max (W ++ input) E' (b1.failWithRetire rs) := by
      intro b1 rs h1 h2
      refine .dead (failWithRetire_failed _ _) (evs_failWithRetire_open _ (fun hc => hl ((late_congr h2).1 hc))) ?_
      rw [failWithRetire_eof, h1]; exact hpe
    cases hc with
    | rejected => exact hfail _ _ rfl rfl
    | bad => exact hfail _ _ rfl rfl
    | cut => exact hfail _ _ rfl rfl
    | refused => exact hfail _ _ rfl rfl
    | more s' left hr hd _ =>
      exact ⟨hpe, fun _ => h.ring_ hl, fun _ => h.max_ hl, fun _ => (h.open_ hl).data hs hr hd,
        fun hp => absurd (.inl hp) hl, fun hl' => absurd hl' hl⟩
    | ended s' s'' hr hd he hh2 =>
      have hT := (h.open_ hl).data hs hr hd
      obtain ⟨hee, hset, hib⟩ := eof_settled hh2
      subst hee
      obtain ⟨s0, D, U, h1, h2, h3, h4⟩ := hT.behind rfl rfl rfl rfl
      have hdel := fed_delivers h3 hset hib
      simp only [h.ring_ hl, h.max_ hl] at h2
      have hauth : ∀ ev ∈ s''.endpointEvents, Auth env X T opened ring max (W ++ input) E' ev := by
        intro ev hev
        exact ⟨heof he, U, D, s0, h4 (hdel ev hev).ne_nil, h2, h1, hdel ev hev⟩
      have hlate : (({ b with records := (b.records.recv input).1.read.1, stream := some s'', accum := [] } : Bridge I A).observeRecvFin).Late := by
        unfold observeRecvFin
        simp only []
        split
        · exact .inl rfl
        · exact .inr rfl
        · next hn1 hn2 =>
          exfalso
          unfold Late isTerminal at hl
          cases hp : b.phase <;> simp_all
      refine ⟨?_, fun h => absurd hlate h, fun h => absurd hlate h, fun h => absurd hlate h, ?_, ?_⟩
      · intro hp
        refine hpe ?_
        rw [← hp]
        unfold observeRecvFin
        split <;> rfl
      · intro _
        refine ⟨s'', ?_, hset⟩
        unfold observeRecvFin
        split <;> rfl
      · intro _ ev hev
        rw [evs_observeRecvFin] at hev
        exact hauth ev hev

theorem PumpOut.late_ {now : Nat} (h : PumpOut T b now b') (hl : b.Late) : b'.Late := by
  cases h with
  | idle => exact hl
  | expired => exact late_of_failed (fail_failed _ _)
  | failed => exact late_of_failed (failWithRetire_failed _ _)
  | late => exact late_of_failed (failWithRetire_failed _ _)
  | quiet _ _ _ _ _ _ _ _ hc => exact closeSend_late hc hl
  | broken => exact late_of_failed (failWithRetire_failed _ _)
  | sent _ _ _ _ _ _ _ _ _ _ _ hc => exact closeSend_late hc hl

theorem closeSend_eof {s : Stream I A} (h : CloseSend b s b') : b'.pendingEof = b.pendingEof := by
  cases h with
  | failed => exact failWithRetire_eof _ _
  | open_ => rfl
  | closed => unfold observeSendFin; split <;> rfl

theorem pumpOut_eof {now : Nat} (h : PumpOut T b now b') : b'.pendingEof = b.pendingEof := by
  cases h with
  | idle => rfl
  | expired => exact fail_eof _ _
  | failed => exact failWithRetire_eof _ _
  | late => exact failWithRetire_eof _ _
  | quiet _ _ _ _ _ _ _ _ hc => exact (closeSend_eof hc).trans rfl
  | broken => exact failWithRetire_eof _ _
  | sent _ _ _ _ _ _ _ _ _ _ _ hc => exact (closeSend_eof hc).trans rfl

theorem closeSend_settled {s : Stream I A} (h : CloseSend b s b') (hp : b'.phase = .recvClosed) :
    b.phase = .recvClosed ∧ b'.stream = b.stream := by
  cases h with
  | failed =>
    have := failWithRetire_failed b .transport
    simp [isFailed, hp] at this
  | open_ => exact ⟨hp, rfl⟩
  | closed =>
    exfalso
    unfold observeSendFin at hp
    split at hp
    · cases hp
    · cases hp
    · next h1 h2 => exact h2 hp

theorem pumpOut_settled {now : Nat} (h : PumpOut T b now b')
    (hset : b.phase = .recvClosed → ∃ s, b.stream = some s ∧ Settled s) (hp : b'.phase = .recvClosed) :
    ∃ s, b'.stream = some s ∧ Settled s := by
  have hnf : b'.isFailed = false := by simp [isFailed, hp]
  have hpoll : ∀ s s' o, b.stream = some s → s.pollTransmit now = (s', o) → b.phase = .recvClosed → Settled s' := by
    intro s s' o hs hr hb
    obtain ⟨s1, h1, h2⟩ := hset hb
    rw [hs] at h1; cases h1
    have := (h2.poll now).1
    rw [hr] at this; exact this
  cases h with
  | idle => exact hset hp
  | expired => rw [fail_failed] at hnf; cases hnf
  | failed => rw [failWithRetire_failed] at hnf; cases hnf
  | late => rw [failWithRetire_failed] at hnf; cases hnf
  | quiet s s' _ hs _ _ _ hr hc =>
    obtain ⟨h1, h2⟩ := closeSend_settled hc hp
    exact ⟨s', h2, hpoll s s' _ hs hr h1⟩
  | broken => rw [failWithRetire_failed] at hnf; cases hnf
  | sent s s' _ _ _ hs _ _ _ hr _ hc =>
    obtain ⟨h1, h2⟩ := closeSend_settled hc hp
    exact ⟨s', h2, hpoll s s' _ hs hr h1⟩

theorem BInv.closeSend {s : Stream I A} (h : BInv env X T opened ring max W E b) (hl : ¬ b.Late)
    (hc : CloseSend b s b') : BInv env X T opened ring max W E b' := by
  cases hc with
  | failed =>
    exact .dead (failWithRetire_failed _ _) (evs_failWithRetire_open _ hl) (by rw [failWithRetire_eof]; exact h.eof)
  | open_ => exact h
  | closed =>
    have hnl : ¬ (({ b with finSent := true } : Bridge I A).observeSendFin).Late := by
      unfold Late isTerminal observeSendFin at *
      cases hp : b.phase <;> simp_all
    refine ⟨?_, fun _ => ?_, fun _ => ?_, fun _ => ?_, fun hp => absurd (.inl hp) hnl, fun hl' => absurd hl' hnl⟩
    · intro hp
      refine h.eof ?_
      rw [← hp]
      unfold observeSendFin
      split <;> rfl
    · rw [← h.ring_ hl]; unfold observeSendFin; split <;> rfl
    · rw [← h.max_ hl]; unfold observeSendFin; split <;> rfl
    · refine (h.open_ hl).congr ?_ ?_ ?_ ?_ ?_ <;> (unfold observeSendFin; split <;> rfl)

theorem BInv.pumpOut {now : Nat} (h : BInv env X T opened ring max W E b)
    (hv : b.stream ≠ none → b.records.isHandshaking = false) (hp : PumpOut T b now b') :
    BInv env X T opened ring max W E b' := by
  by_cases hl : b.Late
  · exact h.lateStep hl (hp.late_ hl) (evs_pumpOut hp) (pumpOut_settled hp h.settled)
      (by rw [pumpOut_eof hp]; exact h.eof) (.inl rfl) id
  · have hfail : ∀ (b1 : Bridge I A) (rs : LinkFail), b1.pendingEof = b.pendingEof → b1.phase = b.phase →
        BInv env X T opened ring max W E (b1.failWithRetire rs) := by
      intro b1 rs h1 h2
      refine .dead (failWithRetire_failed _ _) (evs_failWithRetire_open _ (fun hc => hl ((late_congr h2).1 hc))) ?_
      rw [failWithRetire_eof, h1]; exact h.eof
    cases hp with
    | idle => exact h
    | expired => exact h.fail _
    | failed => exact hfail _ _ rfl rfl
    | late => exact hfail _ _ rfl rfl
    | broken => exact hfail _ _ rfl rfl
    | quiet s s' _ hs _ _ _ hr hc =>
      refine BInv.closeSend (b := { b with stream := some s' }) ?_ hl hc
      exact ⟨h.eof, h.ring_, h.max_, fun hl => (h.open_ hl).poll hs hr, fun hp => absurd (.inl hp) hl, fun hl' => absurd hl' hl⟩
    | sent s s' chunks u _ hs _ _ _ hr _ hc =>
      refine BInv.closeSend (b := { b with stream := some s', sentAny := true, records := b.records.write u, sealed := b.sealed + 1 }) ?_ hl hc
      refine ⟨h.eof, h.ring_, h.max_, fun hl => ?_, fun hp => absurd (.inl hp) hl, fun hl' => absurd hl' hl⟩
      have h1 := ((h.open_ hl).poll hs hr).write (u := u) (hv (by simp [hs]))
      exact h1.congr rfl rfl rfl rfl rfl

theorem BInv.intake {data : Bytes} (h : BInv env X T opened ring max W E b) (hs : b.stream = none)
    (hl : ¬ b.Late) : BInv env X T opened ring max (W ++ data) E (b.intakeHandshaking data) := by
  unfold intakeHandshaking
  simp only []
  split
  · refine .dead (fail_failed _ _) (evs_fail_open _ hl) ?_
    rw [fail_eof]; exact h.eof
  · next hr =>
    refine ⟨h.eof, fun _ => h.ring_ hl, fun _ => h.max_ hl, fun _ => ?_, fun hp => absurd (.inl hp) hl, fun hl' => absurd hl' hl⟩
    obtain ⟨role, r, h1, h2, h3, h4⟩ := h.open_ hl
    rw [hs] at h4
    have hI := h3.recv data
    have hr' : (b.records.recv data).2 = false := by simpa using hr
    have e1 : r.step (.recv data) = { r with s := (b.records.recv data).1, failed := false } := by
      simp only [LRun.step, h2, Bool.false_eq_true, if_false, h1]
      rw [← hr']
    rw [e1] at hI
    refine ⟨role, _, rfl, rfl, hI, ?_⟩
    simp only [hs]
    exact h4

theorem BInv.feed {data : Bytes} {now : Nat} (h : BInv env X T opened ring max W E b)
    (hidle : b.stream = none → b.phase = .handshaking ∨ b.isFailed = true)
    (hbusy : b.stream ≠ none → b.phase ≠ .handshaking)
    (hq : data = [] ∨ (b.Late → b.evs = [])) (hE : E = true → E' = true) (hd : data = [] → E' = true) :
    BInv env X T opened ring max (W ++ data) E' (b.feed env.CI env.CA T data now) := by
  have hE' : BInv env X T opened ring max W E' b :=
    ⟨fun hp => hE (h.eof hp), h.ring_, h.max_, h.open_, h.settled, fun hl ev hev => (h.auth hl ev hev).mono (fun _ h => h) hE⟩
  unfold Bridge.feed
  split
  · next ht =>
    have hl : b.Late := .inr ht
    refine h.lateStep hl hl (fun _ h => h) h.settled hE'.eof ?_ hE
    rcases hq with hq | hq
    · exact .inl (by rw [hq, List.append_nil])
    · exact .inr (hq hl)
  · next ht =>
    have ht' : b.isTerminal = false := by simpa using ht
    split
    · next hs =>
      have hp : b.phase = .handshaking := by
        rcases hidle hs with h | h
        · exact h
        · rw [terminal_of_failed h] at ht'; cases ht'
      have hl : ¬ b.Late := by
        rintro (h | h)
        · rw [hp] at h; cases h
        · rw [h] at ht'; cases ht'
      split
      · next hdat =>
        split
        · rw [hdat, List.append_nil]; exact hE'.fail _
        · rw [hdat]
          refine BInv.intake (b := { b with pendingEof := true }) (data := []) ?_ hs hl
          exact ⟨fun _ => hd hdat, h.ring_, h.max_, fun hl => (h.open_ hl).congr rfl rfl rfl rfl rfl,
            h.settled, fun hl' => absurd hl' hl⟩
      · exact hE'.intake hs hl
    · next s hs =>
      exact hE'.pumpIn hs (hbusy (by simp [hs])) ht' hq id (by simpa using hd)

theorem BInv.replay {now : Nat} (h : BInv env X T opened ring max W E b)
    (hbusy : b.stream ≠ none → b.phase ≠ .handshaking) :
    BInv env X T opened ring max W E (b.replay env.CI env.CA T now) := by
  unfold Bridge.replay
  split
  · exact h
  · next s hs =>
    split
    · exact h
    · next ht =>
      have := h.pumpIn (input := []) (eof := b.pendingEof) (now := now) (E' := E) hs (hbusy (by simp [hs])) (by simpa using ht)
        (.inl rfl) id h.eof
      rwa [List.append_nil] at this

theorem BInv.promote {s : Stream I A} (h : BInv env X T opened ring max W E b) (hs : b.stream = none)
    (hl : ¬ b.Late) (ho : opened s) (hf : Fed env.CI env.CA s [] s) :
    BInv env X T opened ring max W E (b.promote s) := by
  have hnl : ¬ (b.promote s).Late := by
    rintro (h | h) <;> simp [Bridge.promote, isTerminal] at h
  refine ⟨h.eof, fun _ => h.ring_ hl, fun _ => h.max_ hl, fun _ => ?_, fun hp => absurd (.inl hp) hnl, fun hl' => absurd hl' hnl⟩
  obtain ⟨role, r, h1, h2, h3, h4⟩ := h.open_ hl
  rw [hs] at h4
  exact ⟨role, r, h1, h2, h3, s, [], [], ho, .nil, by rw [h4.1]; exact h4.2.symm, hf⟩

theorem BInv.transmit (h : BInv env X T opened ring max W E b) :
    BInv env X T opened ring max W E b.transmit.1 :=
  ⟨h.eof, h.ring_, h.max_, fun hl => (h.open_ hl).transmit, h.settled, h.auth⟩

theorem BInv.setCompression (h : BInv env X T opened ring max W E b) (cmp : CmpOptions) :
    BInv env X T opened ring max W E (b.setCompression cmp) :=
  ⟨h.eof, h.ring_, h.max_, fun hl => (h.open_ hl).congr rfl rfl rfl rfl rfl, h.settled, h.auth⟩

theorem BInv.newDialer (x d : Nat) (cmp : CmpOptions) :
    BInv env X T opened ring max [] false (Bridge.new x (.newDialer X.label X.skipLabel) d cmp ring max) := by
  have hnl : ¬ (Bridge.new x (.newDialer X.label X.skipLabel) d cmp ring max : Bridge I A).Late := by
    rintro (h | h) <;> simp [Bridge.new, isTerminal] at h
  exact ⟨by simp [Bridge.new], fun _ => rfl, fun _ => rfl, fun _ => ⟨.dialer, _, rfl, rfl, .initDialer _ _, rfl, rfl⟩,
    fun hp => absurd (.inl hp) hnl, fun hl' => absurd hl' hnl⟩

theorem BInv.newAcceptor (x d : Nat) (cmp : CmpOptions) :
    BInv env X T opened ring max [] false (Bridge.new x (.newAcceptor X.label X.skipLabel) d cmp ring max) := by
  have hnl : ¬ (Bridge.new x (.newAcceptor X.label X.skipLabel) d cmp ring max : Bridge I A).Late := by
    rintro (h | h) <;> simp [Bridge.new, isTerminal] at h
  exact ⟨by simp [Bridge.new], fun _ => rfl, fun _ => rfl, fun _ => ⟨.acceptor, _, rfl, rfl, .initAcceptor _ _, rfl, rfl⟩,
    fun hp => absurd (.inl hp) hnl, fun hl' => absurd hl' hnl⟩

section
variable [DecidableEq A] {cfg : Cfg I A}

theorem BInv.commit {cmp : CmpOptions} {now : Nat} {e : Ep I A} {s : Stream I A}
    {ev : PayloadEvent I A} {rest : List (PayloadEvent I A)} {r : Ep I A × Bridge I A}
    (h : BInv env X T opened ring max W E b) (hl : b.Late) (hs : b.stream = some s)
    (he : s.endpointEvents = ev :: rest) (hc : CommitOne cfg env T cmp now e b s ev rest r) :
    BInv env X T opened ring max W E r.2 := by
  have hset : b.phase = .recvClosed → Settled s := by
    intro hp
    obtain ⟨s1, h1, h2⟩ := h.settled hp
    rw [hs] at h1; cases h1; exact h2
  have hevs : b.evs = ev :: rest := by simp [evs, hs, he]
  have hev : ∀ ev' ∈ r.2.evs, ev' ∈ b.evs := by
    intro ev' h'
    rw [hevs]
    rcases commitOne_evs hc with h1 | h1 <;> rw [h1] at h'
    · exact List.mem_cons_of_mem _ h'
    · cases h'
  cases hc with
  | quiet e' _ =>
    exact h.lateStep hl hl hev (fun hp => ⟨_, rfl, hset hp⟩) h.eof (.inl rfl) id
  | respond e' p b' _ hp =>
    refine h.lateStep hl (hp.late_ hl) hev (pumpOut_settled hp (fun hp => ⟨_, rfl, hset hp⟩)) ?_ (.inl rfl) id
    rw [pumpOut_eof hp]; exact h.eof
  | close e' _ =>
    refine h.lateStep hl (late_of_failed (failWithRetire_failed _ _)) hev (fun hp => ?_) ?_ (.inl rfl) id
    · have := failWithRetire_failed ({ b with stream := some { s with endpointEvents := rest } }) .admissionClosed
      simp only [] at hp
      simp [isFailed, hp] at this
    · rw [failWithRetire_eof]; exact h.eof
end

end Bridge

namespace Coord
variable {I A : Type} [DecidableEq I] [DecidableEq A] {cfg : Cfg I A} {env : Env I A} {X : XCfg} {T : TEnv} {N : Nat → Bridge I A → Prop} {L : Prop}

/-- Streams opened for exchange `x` by the endpoint calls made so far. -/
def OpenedX (cfg : Cfg I A) (env : Env I A) (e0 : Ep I A) (calls : List (Option Nat × Ep.Op I A)) (x : Nat)
    (s : Stream I A) : Prop := ∃ op, Opened cfg env e0 calls x op s

theorem OpenedX.mono {e0 : Ep I A} {calls : List (Option Nat × Ep.Op I A)} {x : Nat} {s : Stream I A}
    (h : OpenedX cfg env e0 calls x s) (l : List (Option Nat × Ep.Op I A)) :
    OpenedX cfg env e0 (calls ++ l) x s := by
  obtain ⟨op, before, h1, h2⟩ := h
  exact ⟨op, before, h1.trans (List.prefix_append _ _), h2⟩

/-- A freshly opened stream holds nothing. -/
theorem fed_opened {e : Ep I A} {op : Ep.Op I A} {s : Stream I A} (h : (e.step cfg env op).2 = .stream (some s)) :
    Fed env.CI env.CA s [] s := by
  cases op <;> simp only [Ep.step] at h <;> try (cases h; done)
  case acceptStream src now =>
    unfold Ep.acceptStream at h
    split at h
    · simp at h
    · simp only [Ep.Out.stream.injEq, Option.some.injEq] at h
      subst h
      exact Fed.fresh _ (.inl rfl) rfl rfl (fun _ => rfl)
  case dialSucceeded id now =>
    unfold Ep.dialSucceeded at h
    split at h
    · simp at h
    · simp only [] at h
      split at h
      · simp at h
      · split at h
        · simp at h
        · simp only [Ep.Out.stream.injEq, Option.some.injEq] at h
          subst h
          exact Fed.fresh _ (.inr ⟨_, rfl⟩) rfl rfl (by simp [Stream.fresh])
  all_goals (split at h <;> cases h)

/-- What holds during a call. `W x`, `E x`: what the connection of exchange `x` delivered; `base`: the
endpoint calls made before. -/
structure GInv (cfg : Cfg I A) (env : Env I A) (X : XCfg) (T : TEnv) (e0 : Ep I A) (W : Nat → Bytes)
    (E : Nat → Bool) (ring : Option Keyring) (base : List (Option Nat × Ep.Op I A)) (c : Coord I A) : Prop where
  shape : Shape cfg env e0 c
  ring_ : c.ring = ring
  fresh : ∀ x, c.nextX ≤ x → W x = [] ∧ E x = false
  br : ∀ x b, c.conns.get? x = some b →
    Bridge.BInv env X T (OpenedX cfg env e0 c.calls x) ring cfg.maxStreamFrameSize (W x) (E x) b
  new : ∃ l, c.calls = base ++ l ∧ ∀ x ev t, (some x, Ep.Op.streamEvent (.payload ev) t) ∈ l →
    Bridge.Auth env X T (OpenedX cfg env e0 c.calls x) ring cfg.maxStreamFrameSize (W x) (E x) ev

variable {e0 : Ep I A} {W : Nat → Bytes} {E : Nat → Bool} {ring : Option Keyring}
  {base : List (Option Nat × Ep.Op I A)} {c c' : Coord I A}

/-- The bridges are untouched or gone, and only other calls were made. -/
theorem GInv.keep (h : GInv cfg env X T e0 W E ring base c) (hs : Shape cfg env e0 c')
    (hr : c'.ring = c.ring) (hn : c'.nextX = c.nextX)
    (hb : ∀ x b, c'.conns.get? x = some b → c.conns.get? x = some b)
    (l : List (Option Nat × Ep.Op I A)) (hc : c'.calls = c.calls ++ l)
    (hl : ∀ x ev t, (some x, Ep.Op.streamEvent (.payload ev) t) ∉ l) :
    GInv cfg env X T e0 W E ring base c' where
  shape := hs
  ring_ := hr.trans h.ring_
  fresh := fun x hx => h.fresh x (by rw [← hn]; exact hx)
  br := fun x b hx => by rw [hc]; exact (h.br x b (hb x b hx)).mono (fun s hs => hs.mono l)
  new := by
    obtain ⟨l0, h1, h2⟩ := h.new
    refine ⟨l0 ++ l, by rw [hc, h1, List.append_assoc], fun x ev t hm => ?_⟩
    rcases List.mem_append.1 hm with hm | hm
    · rw [hc]; exact (h2 x ev t hm).mono (fun s hs => hs.mono l) id
    · exact absurd hm (hl x ev t)

/-- One bridge changes. -/
theorem GInv.put (h : GInv cfg env X T e0 W E ring base c) {x : Nat} {b b' : Bridge I A}
    (hx : c.conns.get? x = some b) (hk : Bridge.Kin b b')
    (hb : Bridge.BInv env X T (OpenedX cfg env e0 c.calls x) ring cfg.maxStreamFrameSize (W x) (E x) b') :
    GInv cfg env X T e0 W E ring base (c.put x b') where
  shape := h.shape.put hx hk
  ring_ := h.ring_
  fresh := h.fresh
  br := fun y b2 hy => by
    simp only [Coord.put, Map.get?_insert] at hy
    split at hy
    · next e => subst e; cases hy; exact hb
    · exact h.br y b2 hy
  new := h.new

theorem complete_calls (c : Coord I A) (x : Nat) (m : Option (XMeta A)) (ok : Bool) :
    ∃ l, (c.complete cfg env x m ok).calls = c.calls ++ l ∧
      (∀ y ev t, (some y, Ep.Op.streamEvent (.payload ev) t) ∉ l) ∧
      (c.complete cfg env x m ok).ring = c.ring := by
  unfold complete
  split
  · exact ⟨[], by simp, by simp, rfl⟩
  · split
    · exact ⟨[], by simp, by simp, rfl⟩
    · exact ⟨_, rfl, by simp, rfl⟩

theorem collect_calls (c : Coord I A) (x : Nat) (b : Bridge I A) :
    (c.collect x b).1.calls = c.calls ∧ (c.collect x b).1.ring = c.ring ∧ (c.collect x b).1.ep = c.ep ∧
      (c.collect x b).1.metas = c.metas ∧ (c.collect x b).1.cmp = c.cmp := by
  unfold collect
  split
  · exact ⟨rfl, rfl, rfl, rfl, rfl⟩
  · split <;> exact ⟨rfl, rfl, rfl, rfl, rfl⟩

theorem reap_calls (c : Coord I A) (x : Nat) (b : Bridge I A) :
    ∃ l, (c.reap cfg env x b).calls = c.calls ++ l ∧
      (∀ y ev t, (some y, Ep.Op.streamEvent (.payload ev) t) ∉ l) ∧
      (c.reap cfg env x b).ring = c.ring ∧ (c.reap cfg env x b).nextX = c.nextX := by
  have h1 : (if b.isFailed = true then c.purge x else (c.collect x b).1).calls = c.calls ∧
      (if b.isFailed = true then c.purge x else (c.collect x b).1).ring = c.ring ∧
      (if b.isFailed = true then c.purge x else (c.collect x b).1).nextX = c.nextX := by
    split
    · exact ⟨rfl, rfl, rfl⟩
    · exact ⟨(collect_calls c x b).1, (collect_calls c x b).2.1, collect_nextX c x b⟩
  unfold reap
  simp only []
  generalize (if b.isFailed = true then c.purge x else (c.collect x b).1) = c1 at h1
  obtain ⟨l, h2, h3, h4⟩ := complete_calls (cfg := cfg) (env := env)
    ({ c1 with conns := c1.conns.erase x, metas := c1.metas.erase x } : Coord I A) x (c1.metas.get? x) (!b.isFailed)
  have h5 := complete_nextX (cfg := cfg) (env := env)
    ({ c1 with conns := c1.conns.erase x, metas := c1.metas.erase x } : Coord I A) x (c1.metas.get? x) (!b.isFailed)
  generalize ({ c1 with conns := c1.conns.erase x, metas := c1.metas.erase x } : Coord I A).complete cfg env x
      (c1.metas.get? x) (!b.isFailed) = c2 at h2 h4 h5
  have h2' : c2.calls = c.calls ++ l := by rw [h2, ← h1.1]
  split
  · next sid _ =>
    refine ⟨l ++ [(some x, .dialFailed sid)], ?_, ?_, h4.trans h1.2.1, h5.trans h1.2.2⟩
    · simp only [teardown, callEp, h2', List.append_assoc]
    · intro y ev t hm
      rcases List.mem_append.1 hm with hm | hm
      · exact h3 y ev t hm
      · simp at hm
  · exact ⟨l, h2', h3, h4.trans h1.2.1, h5.trans h1.2.2⟩

theorem erase_sub {V : Type} (m : Map Nat V) (x : Nat) :
    ∀ y b, (m.erase x).get? y = some b → m.get? y = some b := by
  intro y b h
  rw [Map.get?_erase] at h
  split at h
  · cases h
  · exact h

theorem plain_not_payload {op : Ep.Op I A} (h : Plain op) : ∀ ev t, op ≠ .streamEvent (.payload ev) t := by
  intro ev t e; subst e; exact h

theorem GInv.move (hm : Move cfg env X T N L c c') (h : GInv cfg env X T e0 W E ring base c) :
    GInv cfg env X T e0 W E ring base c' := by
  have hsh : Shape cfg env e0 c' := h.shape.move hm
  cases hm with
  | book s =>
    exact h.keep hsh s.ring s.nextX (by rw [s.conns]; exact fun _ _ h => h) [] (by rw [s.calls]; simp) (by simp)
  | call x op hp =>
    refine h.keep hsh rfl rfl (fun _ _ h => h) [(x, op)] rfl ?_
    intro y ev t hm
    simp only [List.mem_singleton, Prod.mk.injEq] at hm
    exact plain_not_payload hp _ _ hm.2.symm
  | start op sid kind hst =>
    have hp := hst.plain
    refine h.keep hsh rfl rfl (fun _ _ h => h) [(none, op)] rfl ?_
    intro y ev t hm
    simp only [List.mem_singleton, Prod.mk.injEq] at hm
    exact plain_not_payload hp _ _ hm.2.symm
  | @bridge x b b' hx hs =>
    have hb := h.br x b hx
    obtain ⟨m, hmm⟩ := h.shape.meta_of hx
    have sh := h.shape.br x b m hx hmm
    refine h.put hx (Kin.bstep hs) ?_
    cases hs with
    | replay now => exact hb.replay sh.busy
    | pumpOut now => exact hb.pumpOut sh.valid (Bridge.pumpOut_cases _ _)
  | @commit x b s ev rest now hx hs he hl =>
    have hb := h.br x b hx
    have hev : ev ∈ b.evs := by simp [Bridge.evs, hs, he]
    have ha := hb.auth hl ev hev
    have hb' := hb.commit hl hs he (Bridge.commitOne_cases (cfg := cfg) (env := env) (T := T) c.cmp now c.ep b s ev rest)
    refine ⟨hsh, h.ring_, h.fresh, fun y b2 hy => ?_, ?_⟩
    · simp only [Coord.commit, Map.get?_insert] at hy
      split at hy
      · next e => subst e; cases hy; exact hb'.mono (fun s hs => hs.mono _)
      · exact (h.br y b2 hy).mono (fun s hs => hs.mono _)
    · obtain ⟨l0, h1, h2⟩ := h.new
      refine ⟨l0 ++ [(some x, .streamEvent (.payload ev) now)], by simp only [Coord.commit, h1, List.append_assoc], ?_⟩
      intro y ev' t hm
      rcases List.mem_append.1 hm with hm | hm
      · exact (h2 y ev' t hm).mono (fun s hs => hs.mono _) id
      · simp only [List.mem_singleton, Prod.mk.injEq, Option.some.injEq, Ep.Op.streamEvent.injEq,
          EndpointEvent.payload.injEq] at hm
        obtain ⟨rfl, rfl, rfl⟩ := hm
        exact ha.mono (fun s hs => hs.mono _) id
  | @shutdown x b hx ht =>
    have h1 := maybeShutdown_conns c x b
    have h2 : (c.maybeShutdown x b).calls = c.calls ∧ (c.maybeShutdown x b).ring = c.ring ∧
        (c.maybeShutdown x b).nextX = c.nextX := by
      unfold maybeShutdown
      split
      · exact ⟨rfl, rfl, rfl⟩
      · split
        · exact ⟨rfl, rfl, rfl⟩
        · split <;> exact ⟨rfl, rfl, rfl⟩
    exact h.keep hsh h2.2.1 h2.2.2 (by rw [h1.1]; exact fun _ _ h => h) [] (by rw [h2.1]; simp) (by simp)
  | @collect x b hx =>
    obtain ⟨h1, h2, _⟩ := collect_calls c x b
    have h3 : GInv cfg env X T e0 W E ring base (c.collect x b).1 :=
      h.keep (h.shape.collect x b (h.shape.lt x b hx)) h2 (collect_nextX c x b)
        (by rw [(collect_conns c x b).1]; exact fun _ _ h => h) [] (by rw [h1]; simp) (by simp)
    have hx' : (c.collect x b).1.conns.get? x = some b := by rw [(collect_conns c x b).1]; exact hx
    have e : (c.collect x b).2 = b ∨ (c.collect x b).2 = b.transmit.1 := by
      unfold collect
      split
      · exact .inl rfl
      · split <;> exact .inr rfl
    rcases e with e | e <;> rw [e]
    · exact h3.put hx' (.refl b) (h3.br x b hx')
    · exact h3.put hx' (.transmit b) (h3.br x b hx').transmit
  | @reap x b hx ht _ =>
    obtain ⟨l, h1, h2, h3, h4⟩ := reap_calls (cfg := cfg) (env := env) c x b
    exact h.keep hsh h3 h4 (by rw [(reap_conns_eq c x b).1]; exact erase_sub _ _) l h1 h2
  | dial now d hr =>
    rcases dialOne_cases (cfg := cfg) (env := env) (X := X) now c d with ⟨e, _⟩ | ⟨e, _⟩
    · rw [e] at hsh ⊢
      exact h.keep hsh rfl rfl (fun _ _ h => h) [(none, .dialFailed d.1)] rfl (by simp)
    · rw [e] at hsh ⊢
      refine ⟨hsh, h.ring_, fun x hx => h.fresh x (Nat.le_of_succ_le hx), fun y b2 hy => ?_, h.new⟩
      simp only [Map.get?_insert] at hy
      split at hy
      · next e =>
        subst e
        cases hy
        obtain ⟨f1, f2⟩ := h.fresh c.nextX (Nat.le_refl _)
        rw [f1, f2, h.ring_]
        exact .newDialer _ _ _
      · exact h.br y b2 hy
  | @mintOk x b m mint s now hx ht hh hmm hmi hs =>
    have sh := h.shape.br x b m hx hmm
    have hn : b.stream = none := sh.mint.1 (by simp [hmi])
    have hl : ¬ b.Late := by
      rintro (h1 | h1)
      · rcases sh.idle hn with h2 | h2
        · rw [h1] at h2; cases h2
        · rw [Bridge.terminal_of_failed h2] at ht; cases ht
      · rw [ht] at h1; cases h1
    have ho : OpenedX cfg env e0 (c.calls ++ [(some x, mintOp mint now)]) x s := by
      refine ⟨mintOp mint now, c.calls, List.prefix_refl _, ?_⟩
      rw [← h.shape.ep]
      exact hs
    have hb := ((h.br x b hx).mono (fun s hs => hs.mono [(some x, mintOp mint now)])).promote hn hl ho
      (fed_opened (cfg := cfg) (env := env) hs)
    refine ⟨hsh, h.ring_, h.fresh, fun y b2 hy => ?_, ?_⟩
    · simp only [Coord.promoteX, Coord.takeMint, callEp] at hy ⊢
      rw [Map.modify_eq_insert h.shape.nc _ hx, Map.get?_insert] at hy
      split at hy
      · next e => subst e; cases hy; exact hb
      · exact (h.br y b2 hy).mono (fun s hs => hs.mono _)
    · obtain ⟨l0, h1, h2⟩ := h.new
      refine ⟨l0 ++ [(some x, mintOp mint now)],
        by simp only [Coord.promoteX, Coord.takeMint, callEp, h1, List.append_assoc], ?_⟩
      intro y ev' t hm
      rcases List.mem_append.1 hm with hm | hm
      · exact (h2 y ev' t hm).mono (fun s hs => hs.mono _) id
      · cases mint <;> simp [mintOp] at hm
  | @mintOut x b m sid now hx ht hh hmm hmi =>
    have e1 : (c.takeMint cfg env x m (.outbound sid) now).1.calls = c.calls ++ [(some x, .dialSucceeded sid now)] := rfl
    have e2 : (c.takeMint cfg env x m (.outbound sid) now).1.conns = c.conns ∧
        (c.takeMint cfg env x m (.outbound sid) now).1.ring = c.ring ∧
        (c.takeMint cfg env x m (.outbound sid) now).1.nextX = c.nextX := ⟨rfl, rfl, rfl⟩
    generalize (c.takeMint cfg env x m (.outbound sid) now).1 = c1 at *
    obtain ⟨l, h1, h2, h3⟩ := complete_calls (cfg := cfg) (env := env)
      ({ (c1.purge x).purgeConnect x with
          conns := ((c1.purge x).purgeConnect x).conns.erase x,
          metas := ((c1.purge x).purgeConnect x).metas.erase x } : Coord I A) x (((c1.purge x).purgeConnect x).metas.get? x) false
    have h4 := complete_nextX (cfg := cfg) (env := env)
      ({ (c1.purge x).purgeConnect x with
          conns := ((c1.purge x).purgeConnect x).conns.erase x,
          metas := ((c1.purge x).purgeConnect x).metas.erase x } : Coord I A) x (((c1.purge x).purgeConnect x).metas.get? x) false
    have h5 := (complete_conns (cfg := cfg) (env := env)
      ({ (c1.purge x).purgeConnect x with
          conns := ((c1.purge x).purgeConnect x).conns.erase x,
          metas := ((c1.purge x).purgeConnect x).metas.erase x } : Coord I A) x (((c1.purge x).purgeConnect x).metas.get? x) false).1
    refine h.keep hsh (h3.trans e2.2.1) (h4.trans e2.2.2) ?_ ([(some x, .dialSucceeded sid now)] ++ l) ?_ ?_
    · intro y b2 hy
      have hy := (congrArg (fun m => Map.get? m y) h5).symm.trans hy
      have := erase_sub _ _ _ _ hy
      rw [show ((c1.purge x).purgeConnect x).conns = c1.conns from rfl, e2.1] at this
      exact this
    · refine h1.trans ?_
      show c1.calls ++ l = _
      rw [e1, List.append_assoc]
    · intro y ev t hm
      rcases List.mem_append.1 hm with hm | hm
      · simp at hm
      · exact h2 y ev t hm
  | @mintIn x b m peer now hx ht hh hmm hmi =>
    exact h.keep hsh rfl rfl (erase_sub _ _) [(some x, .acceptStream peer now)] rfl (by simp)
  | @cancel x _ _ _ => exact h.keep hsh rfl rfl (erase_sub _ _) [] (by simp [Coord.cancel, teardown, purge]) (by simp)


/-! ### The first effect of a call -/

/-- What one call delivers to exchange `x`. -/
def delta (c : Coord I A) (x : Nat) : XOp I A → Bytes × Bool
  | .data y bytes eof _ => if y = x ∧ x < c.nextX then (bytes, eof) else ([], false)
  | _ => ([], false)

theorem delta_other (c : Coord I A) (x : Nat) {op : XOp I A} (h : ∀ x bytes eof now, op ≠ .data x bytes eof now) :
    delta c x op = ([], false) := by
  cases op <;> first | rfl | exact absurd rfl (h _ _ _ _)

/-- One bridge is changed in place. -/
theorem GInv.modify (h : GInv cfg env X T e0 W E c.ring c.calls c) {W' : Nat → Bytes} {E' : Nat → Bool} (y : Nat)
    (f : Bridge I A → Bridge I A) (hsh : Shape cfg env e0 { c with conns := c.conns.modify y f })
    (hw : ∀ x, x ≠ y → W' x = W x ∧ E' x = E x) (hf : ∀ x, c.nextX ≤ x → W' x = [] ∧ E' x = false)
    (hb : ∀ b, c.conns.get? y = some b →
      Bridge.BInv env X T (OpenedX cfg env e0 c.calls y) c.ring cfg.maxStreamFrameSize (W' y) (E' y) (f b)) :
    GInv cfg env X T e0 W' E' c.ring c.calls { c with conns := c.conns.modify y f } where
  shape := hsh
  ring_ := rfl
  fresh := hf
  br := fun x b hx => by
    simp only [Map.get?_modify] at hx
    split at hx
    · next e =>
      subst e
      rw [Option.map_eq_some_iff] at hx
      obtain ⟨b0, h0, rfl⟩ := hx
      exact hb b0 h0
    · next e =>
      rw [(hw x (fun h => e h.symm)).1, (hw x (fun h => e h.symm)).2]
      exact h.br x b hx
  new := ⟨[], by simp, by simp⟩

theorem GInv.rebase {base' : List (Option Nat × Ep.Op I A)} (h : GInv cfg env X T e0 W E ring base c)
    (hb : base' = c.calls) : GInv cfg env X T e0 W E c.ring base' c :=
  ⟨h.shape, rfl, h.fresh, by rw [h.ring_]; exact h.br, [], by simp [hb], by simp⟩

theorem GInv.bridges (h : GInv cfg env X T e0 W E c.ring c.calls c) (ring' : Option Keyring)
    (f : Bridge I A → Bridge I A) (hsh : Shape cfg env e0 c') (hr : c'.ring = ring') (hn : c'.nextX = c.nextX)
    (hc : c'.calls = c.calls)
    (hm : c'.conns = c.conns.map (fun (e : Nat × Bridge I A) => (e.1, f e.2)))
    (hb : ∀ x b, c.conns.get? x = some b →
      Bridge.BInv env X T (OpenedX cfg env e0 c.calls x) ring' cfg.maxStreamFrameSize (W x) (E x) (f b)) :
    GInv cfg env X T e0 W E ring' c.calls c' where
  shape := hsh
  ring_ := hr
  fresh := fun x hx => h.fresh x (by rw [← hn]; exact hx)
  br := fun x b hx => by
    rw [hm] at hx
    have hx := (get?_map f c.conns x).symm.trans hx
    rw [Option.map_eq_some_iff] at hx
    obtain ⟨b0, h0, rfl⟩ := hx
    rw [hc]
    exact hb x b0 h0
  new := ⟨[], by simp [hc], by simp⟩

theorem GInv.first {c1 : Coord I A} {op : XOp I A} (hf : First cfg env X T c op c1)
    (h0 : GInv cfg env X T e0 W E ring base c) (hcalm : AllCalm c) :
    GInv cfg env X T e0 (fun x => W x ++ (delta c x op).1) (fun x => E x || (delta c x op).2) c1.ring c.calls c1 := by
  have h := h0.rebase rfl
  have hsh : Shape cfg env e0 c1 := h.shape.first hf (order_mem T)
  have hother : (∀ x bytes eof now, op ≠ .data x bytes eof now) →
      (fun x => W x ++ (delta c x op).1) = W ∧ (fun x => E x || (delta c x op).2) = E := by
    intro hd
    constructor <;> funext x <;> simp [delta_other c x hd]
  cases hf with
  | plain s hd =>
    rw [(hother hd.1).1, (hother hd.1).2, s.ring]
    exact h.keep hsh s.ring s.nextX (by rw [s.conns]; exact fun _ _ h => h) [] (by rw [s.calls]; simp) (by simp)
  | gossip src datagram now =>
    rw [(hother (by intros; simp)).1, (hother (by intros; simp)).2]
    exact h.keep hsh rfl rfl (fun _ _ h => h) [] (by simp) (by simp)
  | feed y bytes eof now =>
    refine h.modify y _ hsh ?_ ?_ ?_
    · intro x hx
      have : ¬ (y = x) := fun e => hx e.symm
      simp [delta, this]
    · intro x hx
      obtain ⟨f1, f2⟩ := h.fresh x hx
      have : ¬ (x < c.nextX) := by omega
      simp [delta, this, f1, f2]
    · intro b hb
      have hlt := h.shape.lt y b hb
      obtain ⟨m, hmm⟩ := h.shape.meta_of hb
      have sh := h.shape.br y b m hb hmm
      have hB := h.br y b hb
      have hc0 : b.Late → b.evs = [] := hcalm y b hb (by simp)
      simp only [delta, hlt, and_self, if_true]
      unfold feedAll
      simp only []
      by_cases hbytes : bytes = []
      · rw [if_pos hbytes, hbytes, List.append_nil]
        cases eof with
        | false => simpa using hB
        | true =>
          have := hB.feed (data := []) (now := now) (E' := true) sh.idle sh.busy (.inl rfl) (fun _ => rfl) (fun _ => rfl)
          rw [List.append_nil] at this
          simpa using this
      · rw [if_neg hbytes]
        have h1 := hB.feed (data := bytes) (now := now) (E' := E y) sh.idle sh.busy (.inr hc0) id
          (fun h => absurd h hbytes)
        cases eof with
        | false => simpa using h1
        | true =>
          have sh1 := sh.kin (Bridge.Kin.feed (CI := env.CI) (CA := env.CA) (T := T) b bytes now)
          have := h1.feed (data := []) (now := now) (E' := true) sh1.idle sh1.busy (.inl rfl) (fun _ => rfl) (fun _ => rfl)
          rw [List.append_nil] at this
          simpa using this
  | dialFailed y now =>
    have ho := hother (by simp)
    rw [ho.1, ho.2]
    exact h.modify y _ hsh (fun _ _ => ⟨rfl, rfl⟩) h.fresh (fun b hb => (h.br y b hb).fail _)
  | transportError y now =>
    have ho := hother (by simp)
    rw [ho.1, ho.2]
    exact h.modify y _ hsh (fun _ _ => ⟨rfl, rfl⟩) h.fresh (fun b hb => (h.br y b hb).fail _)
  | leave now farewell =>
    have ho := hother (by simp)
    rw [ho.1, ho.2]
    exact h.keep hsh rfl rfl (fun _ _ h => h) [] (by simp) (by simp)
  | encrypt ring' =>
    have ho := hother (by simp)
    rw [ho.1, ho.2]
    by_cases he : c.ring = ring'
    · have e : (c.setEncryption T ring') = c := by
        unfold Coord.setEncryption
        rw [if_pos he, ← he]
      rw [e] at hsh ⊢
      exact h
    · have hA := abortFailed_fold (T.order c.tick ((c.conns.filter (fun e => !e.2.isFailed)).map Prod.fst))
        ({ c with conns := c.conns.map (fun (e : Nat × Bridge I A) => (e.1, e.2.setEncryption ring')), tick := c.tick + 1 } : Coord I A)
      obtain ⟨_, a2, _, a4, a5, _⟩ := hA
      have e1 : (c.setEncryption T ring').ring = ring' := by
        unfold Coord.setEncryption
        rw [if_neg he]
      have e2 : (c.setEncryption T ring').calls = c.calls := by
        unfold Coord.setEncryption
        rw [if_neg he]
        exact a2
      have e3 : (c.setEncryption T ring').nextX = c.nextX := by
        unfold Coord.setEncryption
        rw [if_neg he]
        exact a5
      have e4 : (c.setEncryption T ring').conns =
          c.conns.map (fun (e : Nat × Bridge I A) => (e.1, e.2.setEncryption ring')) := by
        unfold Coord.setEncryption
        rw [if_neg he]
        exact a4
      rw [e1]
      refine h.bridges ring' (fun b => b.setEncryption ring') hsh e1 e3 e2 e4 ?_
      intro x b hb
      refine .dead (setEncryption_failed b ring') ?_ ?_
      · by_cases hl : b.Late
        · have hc0 : b.evs = [] := hcalm x b hb (by simp) hl
          cases hev : (b.setEncryption ring').evs with
          | nil => rfl
          | cons ev l =>
            have := Bridge.evs_fail ({ b with ring := ring' }) .encryptionPolicyChanged ev
              (by rw [show (({ b with ring := ring' } : Bridge I A).fail .encryptionPolicyChanged) = b.setEncryption ring' from rfl, hev]; exact List.mem_cons_self)
            rw [show ({ b with ring := ring' } : Bridge I A).evs = b.evs from rfl, hc0] at this
            cases this
        · exact Bridge.evs_fail_open (b := { b with ring := ring' }) _ hl
      · rw [show b.setEncryption ring' = ({ b with ring := ring' } : Bridge I A).fail .encryptionPolicyChanged from rfl,
          Bridge.fail_eof]
        exact (h.br x b hb).eof
  | compress cmp =>
    have ho := hother (by simp)
    rw [ho.1, ho.2]
    exact h.bridges c.ring (fun b => b.setCompression cmp) hsh rfl rfl rfl rfl
      (fun x b hb => (h.br x b hb).setCompression cmp)
  | popOut e rest he =>
    have ho := hother (by simp)
    rw [ho.1, ho.2]
    exact h.keep hsh rfl rfl (fun _ _ h => h) [] (by simp) (by simp)
  | popAction =>
    have ho := hother (by simp)
    rw [ho.1, ho.2]
    have e : c.pollAction.1.ring = c.ring ∧ c.pollAction.1.nextX = c.nextX ∧ c.pollAction.1.conns = c.conns ∧
        c.pollAction.1.calls = c.calls := by
      unfold pollAction
      split
      · exact ⟨rfl, rfl, rfl, rfl⟩
      · split <;> exact ⟨rfl, rfl, rfl, rfl⟩
    rw [e.1]
    exact h.keep hsh e.1 e.2.1 (by rw [e.2.2.1]; exact fun _ _ h => h) [] (by rw [e.2.2.2]; simp) (by simp)
  | accept src now x hx =>
    have ho := hother (by simp)
    rw [ho.1, ho.2]
    unfold Coord.accept at hx hsh ⊢
    simp only [] at hx hsh ⊢
    split at hx
    · cases hx
    · split at hx
      · cases hx
      · next h1 h2 =>
        rw [if_neg h1, if_neg h2] at hsh ⊢
        refine ⟨hsh, rfl, fun x hx => h.fresh x (Nat.le_of_succ_le hx), fun y b2 hy => ?_, [], by simp, by simp⟩
        simp only [Map.get?_insert] at hy
        split at hy
        · next e =>
          subst e
          cases hy
          obtain ⟨f1, f2⟩ := h.fresh c.nextX (Nat.le_refl _)
          rw [f1, f2]
          exact .newAcceptor _ _ _
        · exact h.br y b2 hy

theorem received_snoc (c : Coord I A) (x : Nat) (ops : List (XOp I A)) (op : XOp I A) :
    received cfg env X T c x (ops ++ [op]) =
      ((received cfg env X T c x ops).1 ++ (delta (c.run cfg env X T ops) x op).1,
       (received cfg env X T c x ops).2 || (delta (c.run cfg env X T ops) x op).2) := by
  induction ops generalizing c with
  | nil =>
    cases op with
    | data y bytes eof now =>
      by_cases hy : y = x ∧ x < c.nextX
      · simp [received, delta, Coord.run, hy]
      · have e : c.run cfg env X T [] = c := rfl
        rw [e]
        have : delta c x (.data y bytes eof now) = ([], false) := if_neg hy
        rw [this]
        simp only [List.nil_append, received, if_neg hy]
        rfl
    | _ => rfl
  | cons a ops ih =>
    have e : c.run cfg env X T (a :: ops) = (c.step cfg env X T a).1.run cfg env X T ops := rfl
    rw [e]
    cases a with
    | data y bytes eof now =>
      simp only [List.cons_append, received]
      rw [ih]
      by_cases hy : y = x ∧ x < c.nextX
      · simp only [if_pos hy, List.append_assoc, Bool.or_assoc]
      · simp only [if_neg hy]
    | _ => exact ih _

/-- The invariant holds between calls. -/
theorem ginv_run (e0 : Ep I A) (cmp : CmpOptions) (ops : List (XOp I A)) :
    ∃ ring base, GInv cfg env X T e0 (fun x => (received cfg env X T (Coord.new e0 cmp) x ops).1)
      (fun x => (received cfg env X T (Coord.new e0 cmp) x ops).2) ring base ((Coord.new e0 cmp).run cfg env X T ops) := by
  induction ops using snoc_induction with
  | h0 =>
    refine ⟨none, [], .new e0 cmp, rfl, fun _ _ => ⟨rfl, rfl⟩, ?_, [], rfl, by simp⟩
    intro x b hb
    simp [Coord.run, Coord.new] at hb
  | h1 ops op ih =>
    obtain ⟨ring, base, h⟩ := ih
    obtain ⟨c1, h1, h2⟩ := step_moves (cfg := cfg) (env := env) (X := X) (T := T) ((Coord.new e0 cmp).run cfg env X T ops) op
    have h3 := h2.inv (P := GInv cfg env X T e0 _ _ _ _) (fun hm h => h.move hm) (h.first h1 (run_calm e0 cmp ops))
    rw [xrun_snoc]
    simp only [received_snoc]
    exact ⟨_, _, h3⟩

/-- Every payload the coordinator committed was authorised by what its connection had delivered. -/
theorem authorised (e0 : Ep I A) (cmp : CmpOptions) (ops : List (XOp I A)) {x : Nat} {ev : PayloadEvent I A} {t : Nat}
    (hm : (some x, Ep.Op.streamEvent (.payload ev) t) ∈ ((Coord.new e0 cmp).run cfg env X T ops).calls) :
    ∃ pre post, ops = pre ++ post ∧
      Bridge.Auth env X T (OpenedX cfg env e0 ((Coord.new e0 cmp).run cfg env X T pre).calls x)
        ((Coord.new e0 cmp).run cfg env X T pre).ring cfg.maxStreamFrameSize
        (received cfg env X T (Coord.new e0 cmp) x pre).1 (received cfg env X T (Coord.new e0 cmp) x pre).2 ev := by
  induction ops using snoc_induction with
  | h0 => simp [Coord.run, Coord.new] at hm
  | h1 ops op ih =>
    obtain ⟨ring, base, h⟩ := ginv_run (cfg := cfg) (env := env) (X := X) (T := T) e0 cmp ops
    obtain ⟨c1, h1, h2⟩ := step_moves (cfg := cfg) (env := env) (X := X) (T := T) ((Coord.new e0 cmp).run cfg env X T ops) op
    have h3 := h2.inv (P := GInv cfg env X T e0 _ _ _ _) (fun hm h => h.move hm) (h.first h1 (run_calm e0 cmp ops))
    obtain ⟨l, h4, h5⟩ := h3.new
    rw [xrun_snoc, h4] at hm
    rcases List.mem_append.1 hm with hm | hm
    · obtain ⟨pre, post, h6, h7⟩ := ih hm
      exact ⟨pre, post ++ [op], by rw [h6, List.append_assoc], h7⟩
    · refine ⟨ops ++ [op], [], by simp, ?_⟩
      have h6 := h5 x ev t hm
      rw [← h3.ring_] at h6
      rw [xrun_snoc, received_snoc]
      exact h6

end Coord
end Verif
