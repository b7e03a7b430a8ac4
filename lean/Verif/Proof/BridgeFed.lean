import Verif.Proof.Bridge
import Verif.Proof.StreamRun
import Verif.Proof.LabelGate
import Verif.Spec.Coord
import Verif.Props.Transform
/-
Streams behind a bridge: what they hold in terms of everything fed to them.
-/
namespace Verif
open Spec

section
variable {I A : Type} [DecidableEq I] {CI : DataCodec I} {CA : DataCodec A}

/-- Everything fed to stream `s`, opened as `s0`, is `D`. -/
structure Fed (CI : DataCodec I) (CA : DataCodec A) (s0 : Stream I A) (D : Bytes) (s : Stream I A) : Prop where
  id : s.id = s0.id
  peer : s.peer = s0.peer
  me : s.localId = s0.localId
  max : s.maxFrame = s0.maxFrame
  stage : match s.phase with
    | .failed _ => s.endpointEvents = []
    | .outSending k => s0.phase = .outSending k ∧ s.endpointEvents = [] ∧ s.inputBuf = D
    | .outAwaiting k => s0.phase = .outSending k ∧ k ≠ .userMessage ∧ s.endpointEvents = [] ∧ s.inputBuf = D
    | .inAwaiting => s0.phase = .inAwaiting ∧ s.endpointEvents = [] ∧ s.inputBuf = D ∧ s.outputBuf = []
    | .inSending => s0.phase = .inAwaiting ∧ (s.endpointEvents ≠ [] → s.outputBuf = []) ∧
        (∀ ev ∈ s.endpointEvents, ∃ frame, D = frame ++ s.inputBuf ∧ Delivers CI CA s0 frame ev) ∧
        (s.outputBuf = [] ∨ ∃ out, Acks CI CA s0 D out ∧ s.outputBuf = [out])
    | .done => ∀ ev ∈ s.endpointEvents, s.inputBuf = [] ∧ Delivers CI CA s0 D ev

theorem Fed.fresh (s : Stream I A) (hp : s.phase = .inAwaiting ∨ ∃ k, s.phase = .outSending k)
    (he : s.endpointEvents = []) (hi : s.inputBuf = []) (ho : s.phase = .inAwaiting → s.outputBuf = []) :
    Fed CI CA s [] s := by
  refine ⟨rfl, rfl, rfl, rfl, ?_⟩
  rcases hp with h | ⟨k, h⟩
  · rw [h]; exact ⟨rfl, he, hi, ho h⟩
  · rw [h]; exact ⟨rfl, he, hi⟩

theorem Fed.failed {s0 s : Stream I A} {D : Bytes} (h : Fed CI CA s0 D s) (D' : Bytes) (e : StreamErr) :
    Fed CI CA s0 D' (s.enterFailed e) := ⟨h.id, h.peer, h.me, h.max, rfl⟩

theorem Fed.poll {s0 s : Stream I A} {D : Bytes} (h : Fed CI CA s0 D s) (now : Nat) :
    Fed CI CA s0 D (s.pollTransmit now).1 := by
  have hst := h.stage
  unfold Stream.pollTransmit
  split
  · exact h
  · exact h
  · rename_i hnd hnf
    split
    · exact h.failed D _
    · split
      · exact h
      · rename_i ho
        simp only []
        split
        · next hp =>
          rw [hp] at hst
          exact ⟨h.id, h.peer, h.me, h.max, by simp [hst.2.1]⟩
        · next k hk hp =>
          rw [hp] at hst
          refine ⟨h.id, h.peer, h.me, h.max, ?_⟩
          exact ⟨hst.1, fun hc => hk (hc ▸ rfl), hst.2.1, hst.2.2⟩
        · next hp =>
          rw [hp] at hst
          refine ⟨h.id, h.peer, h.me, h.max, ?_⟩
          intro ev hev
          exact absurd (hst.2.1 (List.ne_nil_of_mem hev)) ho
        · refine ⟨h.id, h.peer, h.me, h.max, ?_⟩
          revert hst
          cases hp : s.phase <;> simp_all

/-- A dispatched message and what it delivers. -/
theorem Fed.dispatch {s0 s s' : Stream I A} {D frame rest : Bytes} {m : Message I A} {now : Nat}
    (h : Fed CI CA s0 D { s with inputBuf := D }) (hD : D = frame ++ rest)
    (hm : parseMessage CI CA frame = .ok m) (hlen : frame.length ≤ s.maxFrame)
    (hd : Stream.dispatch CI CA { s with inputBuf := rest } m now = .ok s')
    (hx : ¬ (Stream.forbidsFurtherInput s'.phase = true ∧ s'.inputBuf ≠ [])) : Fed CI CA s0 D s' := by
  have hst := h.stage
  have hmax : s.maxFrame = s0.maxFrame := h.max
  have hpeer : s.peer = s0.peer := h.peer
  have hid : s.id = s0.id := h.id
  simp only [] at hst
  unfold Stream.dispatch at hd
  simp only [] at hd
  cases hp : s.phase with
  | outAwaiting k =>
    rw [hp] at hst hd
    cases k with
    | userMessage => exact absurd rfl hst.2.1
    | pushPull k =>
      simp only [] at hd
      split at hd
      · next pp =>
        injection hd with hd
        subst hd
        simp only [Stream.forbidsFurtherInput, true_and, ne_eq, not_not] at hx
        refine ⟨h.id, h.peer, h.me, h.max, ?_⟩
        simp only [hst.2.2.1, List.nil_append, List.mem_singleton, forall_eq]
        refine ⟨hx, ?_, ?_⟩
        · rw [hD, hx, List.append_nil]; omega
        · rw [hst.1]
          exact ⟨pp, by rw [hD, hx, List.append_nil]; exact hm, by rw [hpeer, hid]⟩
      · cases hd
    | reliablePing seq =>
      simp only [] at hd
      split at hd
      · next n pl =>
        split at hd
        · cases hd
        · next hn =>
          injection hd with hd
          subst hd
          simp only [Stream.forbidsFurtherInput, true_and, ne_eq, not_not] at hx
          refine ⟨h.id, h.peer, h.me, h.max, ?_⟩
          simp only [hst.2.2.1, List.nil_append, List.mem_singleton, forall_eq]
          refine ⟨hx, ?_, ?_⟩
          · rw [hD, hx, List.append_nil]; omega
          · rw [hst.1]
            refine ⟨pl, now, ?_, rfl⟩
            rw [hD, hx, List.append_nil, hm]
            simp only [ne_eq, not_not] at hn
            rw [hn]
      · cases hd
  | inAwaiting =>
    rw [hp] at hst hd
    simp only [] at hd
    split at hd
    · next pp =>
      injection hd with hd
      subst hd
      simp only [Stream.forbidsFurtherInput, true_and, ne_eq, not_not] at hx
      refine ⟨h.id, h.peer, h.me, h.max, ?_⟩
      simp only [hst.2.1, List.nil_append, List.mem_singleton, forall_eq]
      refine ⟨hst.1, fun _ => hst.2.2.2, ⟨frame, hD, ?_, ?_⟩, .inl hst.2.2.2⟩
      · omega
      · rw [hst.1]
        exact .inr ⟨pp, hm, by rw [hpeer, hid]⟩
    · next q =>
      split at hd
      · cases hd
      · next hq =>
        simp only [ne_eq, not_not] at hq
        split at hd
        · cases hd
        · next out hout =>
          injection hd with hd
          subst hd
          have hme : s.localId = s0.localId := h.me
          refine ⟨h.id, h.peer, h.me, h.max, ?_⟩
          refine ⟨hst.1, fun hc => absurd hst.2.1 hc, fun ev hev => ?_, .inr ⟨out, ⟨frame, rest, q, hD, hm, by rw [hq, hme], hout⟩, ?_⟩⟩
          · have hev : ev ∈ s.endpointEvents := hev
            rw [hst.2.1] at hev; cases hev
          · show s.outputBuf ++ [out] = [out]
            rw [hst.2.2.2]; rfl
    · next d =>
      injection hd with hd
      subst hd
      simp only [Stream.forbidsFurtherInput, true_and, ne_eq, not_not] at hx
      refine ⟨h.id, h.peer, h.me, h.max, ?_⟩
      simp only [hst.2.1, List.nil_append, List.mem_singleton, forall_eq]
      refine ⟨hx, ?_, ?_⟩
      · rw [hD, hx, List.append_nil]; omega
      · rw [hst.1]
        exact .inl ⟨d, by rw [hD, hx, List.append_nil]; exact hm, by rw [hpeer]⟩
    · cases hd
  | outSending k => rw [hp] at hd; cases hd
  | inSending => rw [hp] at hd; cases hd
  | done => rw [hp] at hd; cases hd
  | failed e => rw [hp] at hd; cases hd

theorem Fed.data {s0 s s' : Stream I A} {D d : Bytes} {now : Nat} (h : Fed CI CA s0 D s) (hd : d ≠ [])
    (hr : s.handleData CI CA d now = (s', none)) : Fed CI CA s0 (D ++ d) s' := by
  have hst := h.stage
  unfold Stream.handleData at hr
  split at hr
  · next e hp =>
    injection hr with hr
    subst hr
    exact ⟨h.id, h.peer, h.me, h.max, by rw [hp] at hst ⊢; exact hst⟩
  · simp [hd] at hr
  · rename_i hnf hnd
    split at hr
    · next s1 hin =>
      injection hr with hr
      subst hr
      unfold Stream.handleDataInner at hin
      split at hin
      · cases hin
      · split at hin
        · cases hin
        · rename_i hlen
          unfold Stream.tryDecodeFrame at hin
          split at hin
          · cases hin
          · injection hin with hin
            subst hin
            refine ⟨h.id, h.peer, h.me, h.max, ?_⟩
            simp only []
            cases hp : s.phase <;> rw [hp] at hst <;> simp only [] at hst ⊢
            case outSending k => exact ⟨hst.1, hst.2.1, by rw [hst.2.2]⟩
            case outAwaiting k => exact ⟨hst.1, hst.2.1, hst.2.2.1, by rw [hst.2.2.2]⟩
            case inAwaiting => exact ⟨hst.1, hst.2.1, by rw [hst.2.2.1], hst.2.2.2⟩
            case inSending =>
              refine ⟨hst.1, hst.2.1, fun ev hev => ?_, hst.2.2.2.imp (fun h => h) ?_⟩
              · obtain ⟨fr, h1, h2⟩ := hst.2.2.1 ev hev
                exact ⟨fr, by rw [h1, List.append_assoc], h2⟩
              · rintro ⟨out, ⟨fr, rest, q, h1, h2⟩, h3⟩
                exact ⟨out, ⟨fr, rest ++ d, q, by rw [h1, List.append_assoc], h2⟩, h3⟩
            case done => exact absurd hp hnd
            case failed e => exact absurd hp (hnf e)
          · next t n hpf =>
            simp only [] at hin
            split at hin
            · cases hin
            · next c m hw =>
              split at hin
              · cases hin
              · next hc =>
                simp only [ne_eq, not_not] at hc
                split at hin
                · cases hin
                · next s2 hdp =>
                  split at hin
                  · cases hin
                  · next hx =>
                    injection hin with hin
                    subst hin
                    have hle := probeFrame_some_le _ _ hpf
                    simp only [] at hle
                    have hm := wireDecode_parse hw (by simp only [List.length_take]; omega)
                    -- only awaiting phases dispatch
                    have hbuf : s.inputBuf = D := by
                      cases hp : s.phase <;> rw [hp] at hst <;> simp only [] at hst
                      case outSending k => exact hst.2.2
                      case outAwaiting k => exact hst.2.2.2
                      case inAwaiting => exact hst.2.2.1
                      all_goals
                        exfalso
                        simp only [Stream.dispatch, hp] at hdp
                        cases hdp
                    have hfed : Fed CI CA s0 (D ++ d) { s with inputBuf := D ++ d } := by
                      refine ⟨h.id, h.peer, h.me, h.max, ?_⟩
                      simp only []
                      cases hp : s.phase <;> rw [hp] at hst <;> simp only [] at hst ⊢
                      case outSending k => exact ⟨hst.1, hst.2.1, trivial⟩
                      case outAwaiting k => exact ⟨hst.1, hst.2.1, hst.2.2.1, trivial⟩
                      case inAwaiting => exact ⟨hst.1, hst.2.1, trivial, hst.2.2.2⟩
                      all_goals
                        exfalso
                        simp only [Stream.dispatch, hp] at hdp
                        cases hdp
                    rw [hbuf] at hdp hm hle
                    refine hfed.dispatch (frame := (D ++ d).take n) (rest := (D ++ d).drop n)
                      (List.take_append_drop _ _).symm hm ?_ hdp hx
                    simp only [List.length_take]
                    omega
    · cases hr

/-- A stream that takes no more payloads: further input adds none. -/
def Settled (s : Stream I A) : Prop :=
  match s.phase with
  | .inSending | .done | .failed _ | .outSending .userMessage => True
  | _ => False

/-- The end of the peer's stream is accepted by settled streams only. -/
theorem eof_settled {s s' : Stream I A} {now : Nat} (hr : s.handleData CI CA [] now = (s', none)) :
    s' = s ∧ Settled s ∧ (s.phase = .inSending → s.inputBuf = []) := by
  unfold Stream.handleData at hr
  unfold Settled
  split at hr
  · next e hp => injection hr with hr; subst hr; simp [hp]
  · next hp =>
    rw [if_pos rfl] at hr
    injection hr with hr; subst hr; simp [hp]
  · rename_i hnf hnd
    split at hr
    · next s1 hin =>
      injection hr with hr
      subst hr
      unfold Stream.handleDataInner at hin
      split at hin
      · cases hin
      · rw [if_pos rfl] at hin
        split at hin
        · cases hin
        · cases hin
        · next hp => injection hin with hin; subst hin; simp [hp]
        · cases hin
        · next hp =>
          split at hin
          · cases hin
          · next hb => injection hin with hin; subst hin; simp only [ne_eq, not_not] at hb; simp [hp, hb]
        · next hp => exact absurd hp hnd
        · next hp => exact absurd hp (hnf _)
    · cases hr

theorem Settled.data {s : Stream I A} (h : Settled s) (d : Bytes) (now : Nat) :
    Settled (s.handleData CI CA d now).1 ∧
      ∀ ev ∈ (s.handleData CI CA d now).1.endpointEvents, ev ∈ s.endpointEvents := by
  unfold Settled at h
  rcases data_effect (CI := CI) (CA := CA) s d now with h1 | ⟨e, _, h1, _⟩ | ⟨b, _, h1, _, _⟩ | ⟨p, h1, h2⟩ | ⟨p, h1, h2⟩ | ⟨o, h1, h2⟩
  · rw [h1]; exact ⟨h, fun _ h => h⟩
  · rw [h1]; exact ⟨trivial, fun _ h => by simp [Stream.enterFailed] at h⟩
  · rw [h1]; exact ⟨h, fun _ h => h⟩
  · rcases h2 with h2 | ⟨k, h2⟩ <;> rw [h2] at h <;> exact absurd h id
  · rw [h2] at h; exact absurd h id
  · rw [h2] at h; exact absurd h id

theorem Settled.poll {s : Stream I A} (h : Settled s) (now : Nat) :
    Settled (s.pollTransmit now).1 ∧
      ∀ ev ∈ (s.pollTransmit now).1.endpointEvents, ev ∈ s.endpointEvents := by
  unfold Settled at h
  rcases send_effect s now with ⟨h1, _⟩ | ⟨d, _, _, h1, _⟩ | ⟨p, h1, _, _, h2⟩ | ⟨h1, _⟩
  · rw [h1]; exact ⟨h, fun _ h => h⟩
  · rw [h1]; exact ⟨trivial, fun _ h => by simp [Stream.enterFailed] at h⟩
  · rcases h2 with h2 | ⟨k, hk, h2⟩
    · rw [h1, h2]; exact ⟨h, fun _ h => h⟩
    · exfalso
      rw [hk] at h
      cases k with
      | userMessage => 
        have h3 : (s.pollTransmit now).1.phase ≠ .outAwaiting .userMessage := by
          unfold Stream.pollTransmit
          rw [hk]
          simp only []
          split
          · simp [Stream.enterFailed]
          · split
            · simp [hk]
            · simp
        rw [h1, h2] at h3
        exact h3 rfl
      | pushPull k => exact h
      | reliablePing k => exact h
  · rw [h1]; exact ⟨trivial, fun _ h => h⟩

theorem poll_events (s : Stream I A) (now : Nat) :
    ∀ ev ∈ (s.pollTransmit now).1.endpointEvents, ev ∈ s.endpointEvents := by
  rcases send_effect s now with ⟨h1, _⟩ | ⟨d, _, _, h1, _⟩ | ⟨p, h1, _, _, h2⟩ | ⟨h1, _⟩ <;> rw [h1] <;>
    intro ev h <;> first | exact h | (simp [Stream.enterFailed] at h)

/-! ### Units -/

theorem take_unit {B : Backends} {ring : Option Keyring} {buf plain : Bytes} {max used : Nat}
    (h : takeReliableUnit B ring buf max = .ok (some (plain, used))) :
    UnitOf B ring max (buf.take used) plain ∧ used ≤ buf.length ∧ 0 < used := by
  unfold takeReliableUnit at h
  split at h
  · cases h
  · cases h
  · cases h
  · next n v hv =>
    obtain ⟨hl, hlen⟩ := lenField_of_decodeVarint hv
    simp only [] at h
    generalize (if ring.isSome then max + ENCRYPTED_WRAPPER_OVERHEAD else max) = um at h
    split at h
    · cases h
    · split at h
      · cases h
      · next hbuf =>
        split at h
        · cases h
        · next p hu =>
          injection h with h
          injection h with h
          injection h with h1 h2
          subst h1 h2
          obtain ⟨ls, h1, h2, h3, h4, h5⟩ := (Props.C09_accepts_iff _ _ _ _ _).1 hu
          have hpos := hl.1.length_pos
          simp only [List.length_take] at hlen hpos
          have hb : ((buf.drop v).take n).length = n := by
            simp only [List.length_take, List.length_drop]; omega
          refine ⟨⟨buf.take v, (buf.drop v).take n, ls, ?_, by rw [hb]; exact hl, h1, h2, h3, h4, h5⟩, by omega, by omega⟩
          rw [List.take_add]

theorem Units.one {B : Backends} {ring : Option Keyring} {max : Nat} {u q : Bytes}
    (h : UnitOf B ring max u q) : Units B ring max u q := by
  have := Units.snoc _ _ u q .nil h
  simpa using this

end

namespace Bridge
variable {I A : Type} [DecidableEq I] {CI : DataCodec I} {CA : DataCodec A} {T : TEnv}

theorem drainUnits_fed {ring : Option Keyring} {max now : Nat} {s0 : Stream I A} (fuel : Nat) :
    ∀ {s s' : Stream I A} {buf left U D : Bytes},
      drainUnits CI CA T ring max now fuel s buf = (s', left, .all) →
      Units T.B ring max U D → Fed CI CA s0 D s →
      ∃ w D', buf = w ++ left ∧ Units T.B ring max (U ++ w) D' ∧ Fed CI CA s0 D' s' := by
  induction fuel with
  | zero =>
    intro s s' buf left U D h hU hF
    simp only [drainUnits, Prod.mk.injEq] at h
    obtain ⟨rfl, rfl, _⟩ := h
    exact ⟨[], D, rfl, by simpa using hU, hF⟩
  | succ fuel ih =>
    intro s s' buf left U D h hU hF
    simp only [drainUnits] at h
    split at h
    · simp at h
    · simp only [Prod.mk.injEq] at h
      obtain ⟨rfl, rfl, _⟩ := h
      exact ⟨[], D, rfl, by simpa using hU, hF⟩
    · next plain used ht =>
      obtain ⟨hu, hle, _⟩ := take_unit ht
      split at h
      · simp at h
      · next s1 hd =>
        have hp : plain ≠ [] := by
          obtain ⟨_, _, _, _, _, _, _, _, ⟨b, r, hb, _⟩, _⟩ := hu
          rw [hb]; simp
        obtain ⟨w, D', h1, h2, h3⟩ := ih h (.snoc _ _ _ _ hU hu) (hF.data hp hd)
        refine ⟨buf.take used ++ w, D', ?_, by rw [← List.append_assoc]; exact h2, h3⟩
        rw [List.append_assoc, ← h1, List.take_append_drop]

theorem drainUnits_settled {ring : Option Keyring} {max now : Nat} (fuel : Nat) :
    ∀ {s : Stream I A} {buf : Bytes}, Settled s →
      Settled (drainUnits CI CA T ring max now fuel s buf).1 ∧
      ∀ ev ∈ (drainUnits CI CA T ring max now fuel s buf).1.endpointEvents, ev ∈ s.endpointEvents := by
  induction fuel with
  | zero => intro s buf h; exact ⟨h, fun _ h => h⟩
  | succ fuel ih =>
    intro s buf h
    simp only [drainUnits]
    split
    · exact ⟨h, fun _ h => h⟩
    · exact ⟨h, fun _ h => h⟩
    · next plain used _ =>
      have hs := h.data (CI := CI) (CA := CA) plain now
      split
      · next s1 _ hd => rw [hd] at hs; exact hs
      · next s1 hd =>
        rw [hd] at hs
        have := ih (buf := buf.drop used) hs.1
        exact ⟨this.1, fun ev he => hs.2 ev (this.2 ev he)⟩

/-- The fuel of the unit loop is enough: it stops only where no complete unit is left. -/
theorem drainUnits_fuel {ring : Option Keyring} {max now : Nat} (fuel : Nat) :
    ∀ {s s' : Stream I A} {buf left : Bytes}, buf.length < fuel →
      drainUnits CI CA T ring max now fuel s buf = (s', left, .all) →
      takeReliableUnit T.B ring left max = .ok none := by
  induction fuel with
  | zero => intro s s' buf left h; omega
  | succ fuel ih =>
    intro s s' buf left hf h
    simp only [drainUnits] at h
    split at h
    · simp at h
    · next ht =>
      simp only [Prod.mk.injEq] at h
      obtain ⟨rfl, rfl, _⟩ := h
      exact ht
    · next plain used ht =>
      obtain ⟨_, hle, hpos⟩ := take_unit ht
      split at h
      · simp at h
      · exact ih (by simp only [List.length_drop]; omega) h

/-- A stream has nothing more to send right after it was polled. -/
theorem pollTransmit_once (s : Stream I A) (now : Nat) :
    ((s.pollTransmit now).1.pollTransmit now).2 = none := by
  rcases send_effect s now with ⟨h1, h2⟩ | ⟨d, _, _, h1, _⟩ | ⟨p, h1, _, _, h2⟩ | ⟨h1, _⟩
  · rw [h1]
    have : ∀ o, (s.pollTransmit now).2 = some o → o ≠ [] := by
      intro o ho
      unfold Stream.pollTransmit at ho
      split at ho
      · cases ho
      · cases ho
      · split at ho
        · cases ho
        · split at ho
          · cases ho
          · next hb =>
            simp only [] at ho
            split at ho <;> (injection ho with ho; rw [← ho]; exact hb)
    cases ho : (s.pollTransmit now).2 with
    | none => rfl
    | some o => rw [ho] at h2; exact absurd h2 (this o ho)
  · rw [h1]; rfl
  · rw [h1]
    unfold Stream.pollTransmit
    simp only []
    split
    · rfl
    · rfl
    · split
      · rfl
      · simp
  · rw [h1]; rfl

end Bridge
end Verif
