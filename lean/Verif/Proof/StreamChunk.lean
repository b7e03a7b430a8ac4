import Verif.Proof.Stream
import Verif.Spec.Stream
namespace Verif
open Spec

section
variable {I A : Type} [DecidableEq I] {CI : DataCodec I} {CA : DataCodec A}

/-- Forget the deadline and event times. -/
def erase (s : Stream I A) : Stream I A :=
  { s with deadline := none, endpointEvents := s.endpointEvents.map eventShape }

theorem expired_false {s : Stream I A} {now : Nat} (h : BeforeDeadline s now) : s.expired now = false := by
  unfold Stream.expired
  split
  · rfl
  · rename_i d hd
    have := h d hd
    simp; omega

theorem dispatch_erase (s : Stream I A) (m : Message I A) (now : Nat) :
    (Stream.dispatch CI CA s m now).map erase = (Stream.dispatch CI CA (erase s) m 0).map erase := by
  have hphase : (erase s).phase = s.phase := rfl
  have hpeer : (erase s).localId = s.localId := rfl
  unfold Stream.dispatch
  rw [hphase, hpeer]
  split
  · split
    · simp [Except.map, erase, eventShape, Function.comp_def]
      intro a _; cases a <;> rfl
    · rfl
  · split
    · split
      · rfl
      · simp [Except.map, erase, eventShape, Function.comp_def]
        intro a _; cases a <;> rfl
    · rfl
  · simp [Except.map, erase, Function.comp_def]
    intro a _; cases a <;> rfl
  · split
    · simp [Except.map, erase, eventShape, Function.comp_def]
      intro a _; cases a <;> rfl
    · split
      · rfl
      · split
        · rfl
        · simp [Except.map, erase, Function.comp_def]
          intro a _; cases a <;> rfl
    · simp [Except.map, erase, eventShape, Function.comp_def]
      intro a _; cases a <;> rfl
    · rfl
  all_goals rfl

theorem tryDecode_erase (s : Stream I A) (now : Nat) :
    (Stream.tryDecodeFrame CI CA s now).map erase =
      (Stream.tryDecodeFrame CI CA (erase s) 0).map erase := by
  unfold Stream.tryDecodeFrame
  have h1 : (erase s).maxFrame = s.maxFrame := rfl
  have h2 : (erase s).inputBuf = s.inputBuf := rfl
  rw [h1, h2]
  cases probeFrame s.maxFrame s.inputBuf with
  | error e => rfl
  | ok r =>
    cases r with
    | none =>
      simp [Except.map, erase, Function.comp_def]
      intro a _; cases a <;> rfl
    | some r =>
      obtain ⟨t, n⟩ := r
      simp only
      cases wireDecode CI CA (s.inputBuf.take n) with
      | error e => rfl
      | ok r =>
        obtain ⟨c, m⟩ := r
        simp only
        by_cases hc : c = n
        · simp only [hc, ne_eq, not_true_eq_false, if_false]
          have hd := dispatch_erase (CI := CI) (CA := CA) { s with inputBuf := s.inputBuf.drop n } m now
          have key : ∀ x y : Except StreamErr (Stream I A), x.map erase = y.map erase →
              Except.map erase (match x with
                | .error e => .error e
                | .ok s' => if Stream.forbidsFurtherInput s'.phase = true ∧ ¬s'.inputBuf = [] then
                    .error StreamErr.decode else .ok s') =
              Except.map erase (match y with
                | .error e => .error e
                | .ok s' => if Stream.forbidsFurtherInput s'.phase = true ∧ ¬s'.inputBuf = [] then
                    .error StreamErr.decode else .ok s') := by
            intro x y hxy
            cases x with
            | error e =>
              cases y with
              | error e' => exact hxy
              | ok t => cases hxy
            | ok s1 =>
              cases y with
              | error e' => cases hxy
              | ok s2 =>
                simp only [Except.map, Except.ok.injEq] at hxy
                have hp : (erase s1).phase = (erase s2).phase := congrArg Stream.phase hxy
                change s1.phase = s2.phase at hp
                have hb : (erase s1).inputBuf = (erase s2).inputBuf := congrArg Stream.inputBuf hxy
                change s1.inputBuf = s2.inputBuf at hb
                simp only [hp, hb]
                split
                · rfl
                · simp only [Except.map, hxy]
          exact key _ _ hd
        · simp only [ne_eq, hc, not_false_eq_true, if_true, Except.map]

/-- Feeding one chunk, ignoring times. -/
def feed (CI : DataCodec I) (CA : DataCodec A) (s : Stream I A) (d : Bytes) : Stream I A :=
  erase (s.handleData CI CA d 0).1

theorem enterFailed_erase (s : Stream I A) (e : StreamErr) :
    erase (s.enterFailed e) = (erase s).enterFailed e := rfl

theorem handleData_erase {s : Stream I A} {now : Nat} (d : Bytes) (h : BeforeDeadline s now) :
    erase (s.handleData CI CA d now).1 = feed CI CA (erase s) d := by
  have hx := expired_false h
  have hx' : (erase s).expired 0 = false := rfl
  have heeg : ∀ s : Stream I A, erase (erase s) = erase s := by
    intro s
    simp [erase, Function.comp_def]
    intro a _; cases a <;> rfl
  have hee := heeg s
  have hi : (Stream.handleDataInner CI CA s d now).map erase =
      (Stream.handleDataInner CI CA (erase s) d 0).map erase := by
    unfold Stream.handleDataInner
    rw [hx, hx']
    simp only [Bool.false_eq_true, if_false]
    by_cases hd : d = []
    · rw [if_pos hd, if_pos hd]
      have h1 : (erase s).phase = s.phase := rfl
      have h2 : (erase s).inputBuf = s.inputBuf := rfl
      rw [h1, h2]
      split
      all_goals first
        | rfl
        | (simp only [Except.map, hee]; done)
        | (split <;> first | rfl | (simp only [Except.map, hee]))
    · rw [if_neg hd, if_neg hd]
      have h1 : (erase s).inputBuf = s.inputBuf := rfl
      have h2 : (erase s).maxFrame = s.maxFrame := rfl
      rw [h1, h2]
      split
      · rfl
      · exact tryDecode_erase _ _
  unfold feed Stream.handleData
  have h1 : (erase s).phase = s.phase := rfl
  rw [h1]
  split
  · exact hee.symm
  · split
    · exact hee.symm
    · exact (heeg _).symm
  · cases hs : Stream.handleDataInner CI CA s d now with
    | error e =>
      rw [hs] at hi
      cases ht : Stream.handleDataInner CI CA (erase s) d 0 with
      | error e' =>
        rw [ht] at hi
        injection hi with hi
        subst hi
        exact (heeg _).symm
      | ok t => rw [ht] at hi; cases hi
    | ok t =>
      rw [hs] at hi
      cases ht : Stream.handleDataInner CI CA (erase s) d 0 with
      | error e' => rw [ht] at hi; cases hi
      | ok t' => rw [ht] at hi; injection hi with hi

theorem erase_deadline_none (s : Stream I A) (h1 : s.deadline = none)
    (h2 : s.endpointEvents.map eventShape = s.endpointEvents) : erase s = s := by
  cases s
  simp only [erase] at *
  subst h1
  rw [h2]

theorem dispatch_frame {s s' : Stream I A} {m : Message I A} {now : Nat}
    (h : Stream.dispatch CI CA s m now = .ok s') :
    s'.deadline = s.deadline ∧ s'.maxFrame = s.maxFrame ∧ s'.inputBuf = s.inputBuf := by
  unfold Stream.dispatch at h
  split at h
  · split at h
    · injection h with h; subst h; exact ⟨rfl, rfl, rfl⟩
    · cases h
  · split at h
    · split at h
      · cases h
      · injection h with h; subst h; exact ⟨rfl, rfl, rfl⟩
    · cases h
  · injection h with h; subst h; exact ⟨rfl, rfl, rfl⟩
  · split at h
    · injection h with h; subst h; exact ⟨rfl, rfl, rfl⟩
    · split at h
      · cases h
      · split at h
        · cases h
        · injection h with h; subst h; exact ⟨rfl, rfl, rfl⟩
    · injection h with h; subst h; exact ⟨rfl, rfl, rfl⟩
    · cases h
  all_goals cases h

theorem tryDecode_frame {s s' : Stream I A} {now : Nat}
    (h : Stream.tryDecodeFrame CI CA s now = .ok s') :
    s'.deadline = s.deadline ∧ s'.maxFrame = s.maxFrame ∧ s'.inputBuf.length ≤ s.inputBuf.length := by
  unfold Stream.tryDecodeFrame at h
  split at h
  · cases h
  · injection h with h; subst h; exact ⟨rfl, rfl, Nat.le_refl _⟩
  · simp only at h
    split at h
    · cases h
    · split at h
      · cases h
      · split at h
        · cases h
        · rename_i hd
          split at h
          · cases h
          · injection h with h
            subst h
            obtain ⟨a, b, c⟩ := dispatch_frame hd
            refine ⟨a, b, ?_⟩
            rw [c]
            simp only [List.length_drop]
            omega

theorem handleData_frame (s : Stream I A) (d : Bytes) (now : Nat) :
    (s.handleData CI CA d now).1.deadline = s.deadline ∧
    (s.handleData CI CA d now).1.maxFrame = s.maxFrame := by
  unfold Stream.handleData
  split
  · exact ⟨rfl, rfl⟩
  · split <;> exact ⟨rfl, rfl⟩
  · split
    · rename_i s' h
      unfold Stream.handleDataInner at h
      split at h
      · cases h
      · split at h
        · split at h <;> first
            | (injection h with h; subst h; exact ⟨rfl, rfl⟩)
            | (cases h; done)
            | (split at h <;> first | (injection h with h; subst h; exact ⟨rfl, rfl⟩) | (cases h; done))
        · split at h
          · cases h
          · obtain ⟨a, b, _⟩ := tryDecode_frame h
            exact ⟨a, b⟩
    · exact ⟨rfl, rfl⟩

/-- States that can only fail from here on once the peer closes. -/
def Doomed (s : Stream I A) : Prop :=
  (∃ e, s.phase = .failed e) ∨ (s.phase = .inSending ∧ s.inputBuf ≠ []) ∨
    s.phase = .outAwaiting .userMessage

theorem outcome_failed {s : Stream I A} {e : StreamErr} (h : s.phase = .failed e) :
    outcome s = .failed := by
  unfold outcome; rw [h]

theorem dispatch_inSending {s : Stream I A} (h : s.phase = .inSending) (m : Message I A) (now : Nat) :
    Stream.dispatch CI CA s m now = .error .unexpectedMessage := by
  unfold Stream.dispatch; rw [h]

theorem dispatch_userAwaiting {s : Stream I A} (h : s.phase = .outAwaiting .userMessage)
    (m : Message I A) (now : Nat) : Stream.dispatch CI CA s m now = .ok s := by
  unfold Stream.dispatch; rw [h]

theorem dispatch_ok_ne_inSending {s s' : Stream I A} {m : Message I A} {now : Nat}
    (h : Stream.dispatch CI CA s m now = .ok s') (hp : s.phase = .inSending) : False := by
  rw [dispatch_inSending hp] at h; cases h

theorem dispatch_ok_user {s s' : Stream I A} {m : Message I A} {now : Nat}
    (h : Stream.dispatch CI CA s m now = .ok s') (hp : s.phase = .outAwaiting .userMessage) :
    s' = s := by
  rw [dispatch_userAwaiting hp] at h; injection h with h; exact h.symm

theorem feed_inSending {s : Stream I A} (hd : s.deadline = none) (h : s.phase = .inSending) (d : Bytes)
    (hne : d ≠ []) : Doomed (feed CI CA s d) := by
  have hx : s.expired 0 = false := by unfold Stream.expired; rw [hd]
  unfold feed Stream.handleData
  rw [h]
  simp only
  unfold Stream.handleDataInner
  rw [hx]
  simp only [Bool.false_eq_true, if_false, if_neg hne]
  split
  · rename_i s' heq
    split at heq
    · cases heq
    · unfold Stream.tryDecodeFrame at heq
      split at heq
      · cases heq
      · injection heq with heq
        subst heq
        right; left
        exact ⟨h, by simp [erase, hne]⟩
      · simp only at heq
        split at heq
        · cases heq
        · split at heq
          · cases heq
          · split at heq
            · cases heq
            · rename_i hdp
              exact absurd h (fun hh => dispatch_ok_ne_inSending hdp hh)
  · left; exact ⟨_, rfl⟩

theorem feed_doomed {s : Stream I A} (hd : s.deadline = none) (d : Bytes) (hne : d ≠ []) (h : Doomed s) :
    Doomed (feed CI CA s d) := by
  have hx : s.expired 0 = false := by unfold Stream.expired; rw [hd]
  rcases h with ⟨e, h⟩ | ⟨h, hb⟩ | h
  · left
    refine ⟨e, ?_⟩
    unfold feed Stream.handleData
    rw [h]
    exact h
  · unfold feed Stream.handleData
    rw [h]
    simp only
    unfold Stream.handleDataInner
    rw [hx]
    simp only [Bool.false_eq_true, if_false, if_neg hne]
    split
    · rename_i s' heq
      split at heq
      · cases heq
      · unfold Stream.tryDecodeFrame at heq
        split at heq
        · cases heq
        · injection heq with heq
          subst heq
          right; left
          exact ⟨h, by simp [erase, hb]⟩
        · simp only at heq
          split at heq
          · cases heq
          · split at heq
            · cases heq
            · split at heq
              · cases heq
              · rename_i hdp
                exact absurd h (fun hh => dispatch_ok_ne_inSending hdp hh)
    · left; exact ⟨_, rfl⟩
  · unfold feed Stream.handleData
    rw [h]
    simp only
    unfold Stream.handleDataInner
    rw [hx]
    simp only [Bool.false_eq_true, if_false, if_neg hne]
    split
    · rename_i s' heq
      split at heq
      · cases heq
      · unfold Stream.tryDecodeFrame at heq
        split at heq
        · cases heq
        · injection heq with heq
          subst heq
          right; right
          exact h
        · simp only at heq
          split at heq
          · cases heq
          · split at heq
            · cases heq
            · split at heq
              · cases heq
              · rename_i hdp
                have hs := dispatch_ok_user hdp h
                split at heq
                · cases heq
                · injection heq with heq
                  subst heq
                  rw [hs]
                  right; right
                  exact h
    · left; exact ⟨_, rfl⟩

theorem eof_doomed {s : Stream I A} (hd : s.deadline = none) (h : Doomed s) :
    outcome (feed CI CA s []) = .failed := by
  have hx : s.expired 0 = false := by unfold Stream.expired; rw [hd]
  rcases h with ⟨e, h⟩ | ⟨h, hb⟩ | h
  · refine outcome_failed (e := e) ?_
    unfold feed Stream.handleData
    rw [h]
    exact h
  · refine outcome_failed (e := .peerClosed) ?_
    unfold feed Stream.handleData Stream.handleDataInner
    rw [h, hx]
    simp [hb, erase, Stream.enterFailed]
  · refine outcome_failed (e := .peerClosed) ?_
    unfold feed Stream.handleData Stream.handleDataInner
    rw [h, hx]
    simp [erase, Stream.enterFailed]

/-- Two states with the same fate. -/
def Same (s t : Stream I A) : Prop := s = t ∨ (Doomed s ∧ Doomed t)

/-- The phase after a dispatched frame, when the stream lives on. -/
theorem dispatch_phase {s s' : Stream I A} {m : Message I A} {now : Nat}
    (h : Stream.dispatch CI CA s m now = .ok s') :
    s'.phase = .done ∨ s'.phase = .inSending ∨ s'.phase = .outAwaiting .userMessage := by
  unfold Stream.dispatch at h
  split at h
  · split at h
    · injection h with h; subst h; exact .inl rfl
    · cases h
  · split at h
    · split at h
      · cases h
      · injection h with h; subst h; exact .inl rfl
    · cases h
  · rename_i hp; injection h with h; subst h; exact .inr (.inr hp)
  · split at h
    · injection h with h; subst h; exact .inr (.inl rfl)
    · split at h
      · cases h
      · split at h
        · cases h
        · injection h with h; subst h; exact .inr (.inl rfl)
    · injection h with h; subst h; exact .inl rfl
    · cases h
  all_goals cases h

theorem dispatch_input_irrelevant (s : Stream I A) (m : Message I A) (now : Nat) (b : Bytes) :
    Stream.dispatch CI CA { s with inputBuf := b } m now =
      (Stream.dispatch CI CA s m now).map (fun t => { t with inputBuf := b }) := by
  unfold Stream.dispatch
  dsimp only
  split
  · split <;> rfl
  · split
    · split <;> rfl
    · rfl
  · rfl
  · split
    · rfl
    · split
      · rfl
      · split <;> rfl
    · rfl
    · rfl
  all_goals rfl

/-- Splitting one chunk in two. -/
theorem feed_split {s : Stream I A} (hd : s.deadline = none) (a b : Bytes) (ha : a ≠ []) (hb : b ≠ []) :
    Same (feed CI CA (feed CI CA s a) b) (feed CI CA s (a ++ b)) := by
  have hab : a ++ b ≠ [] := by simp [ha]
  have hx : s.expired 0 = false := by unfold Stream.expired; rw [hd]
  have failedFeed : ∀ (t : Stream I A) (e : StreamErr), t.phase = .failed e → Doomed (feed CI CA t b) := by
    intro t e he
    left
    refine ⟨e, ?_⟩
    unfold feed Stream.handleData
    rw [he]
    exact he
  cases hph : s.phase with
  | failed e =>
    right
    have : ∀ d, feed CI CA s d = erase s := by
      intro d; unfold feed Stream.handleData; rw [hph]
    rw [this, this]
    exact ⟨failedFeed _ e hph, .inl ⟨e, hph⟩⟩
  | done =>
    right
    have : ∀ d, d ≠ [] → feed CI CA s d = erase (s.enterFailed .decode) := by
      intro d hne; unfold feed Stream.handleData; rw [hph]; simp [hne]
    rw [this a ha, this _ hab]
    exact ⟨failedFeed _ .decode rfl, .inl ⟨.decode, rfl⟩⟩
  | _ =>
    all_goals
      have hfeed : ∀ d, d ≠ [] → feed CI CA s d =
          if s.inputBuf.length + d.length > s.maxFrame then erase (s.enterFailed .decode)
          else match Stream.tryDecodeFrame CI CA { s with inputBuf := s.inputBuf ++ d } 0 with
            | .ok t => erase t
            | .error e => erase (s.enterFailed e) := by
        intro d hne
        unfold feed Stream.handleData Stream.handleDataInner
        rw [hph, hx]
        simp only [Bool.false_eq_true, if_false, if_neg hne]
        by_cases hc : s.inputBuf.length + d.length > s.maxFrame
        · simp only [if_pos hc]
        · simp only [if_neg hc]
          split <;> simp_all
      rw [hfeed a ha, hfeed (a ++ b) hab]
      by_cases hc : s.inputBuf.length + a.length > s.maxFrame
      · rw [if_pos hc, if_pos (by simp only [List.length_append]; omega)]
        exact .inr ⟨failedFeed _ .decode rfl, .inl ⟨_, rfl⟩⟩
      · rw [if_neg hc]
        cases hp : probeFrame s.maxFrame (s.inputBuf ++ a) with
        | error u =>
          have h1 : Stream.tryDecodeFrame CI CA { s with inputBuf := s.inputBuf ++ a } 0 =
              .error .decode := by
            unfold Stream.tryDecodeFrame; dsimp only; rw [hp]
          have hp2 : probeFrame s.maxFrame (s.inputBuf ++ (a ++ b)) = .error () := by
            rw [← List.append_assoc]; exact probeFrame_error _ _ _ hp
          have h2 : Stream.tryDecodeFrame CI CA { s with inputBuf := s.inputBuf ++ (a ++ b) } 0 =
              .error .decode := by
            unfold Stream.tryDecodeFrame; dsimp only; rw [hp2]
          rw [h1, h2]
          refine .inr ⟨failedFeed _ .decode rfl, ?_⟩
          split <;> exact .inl ⟨_, rfl⟩
        | ok r =>
          cases r with
          | none =>
            left
            have h1 : Stream.tryDecodeFrame CI CA { s with inputBuf := s.inputBuf ++ a } 0 =
                .ok { s with inputBuf := s.inputBuf ++ a } := by
              unfold Stream.tryDecodeFrame; dsimp only; rw [hp]
            rw [h1]
            simp only
            have hfeed2 : feed CI CA (erase { s with inputBuf := s.inputBuf ++ a }) b =
                feed CI CA { s with inputBuf := s.inputBuf ++ a } b := by
              rw [← handleData_erase (now := 0) b (by intro d h; simp [hd] at h)]
              rfl
            rw [hfeed2]
            unfold feed Stream.handleData Stream.handleDataInner
            simp only [hph]
            have hx2 : Stream.expired { s with inputBuf := s.inputBuf ++ a } 0 = false := by
              unfold Stream.expired; simp only [hd]
            rw [hph] at hx2
            rw [hx2]
            simp only [Bool.false_eq_true, if_false, if_neg hb, List.length_append, List.append_assoc,
              Nat.add_assoc]
            by_cases hc2 : s.inputBuf.length + (a.length + b.length) > s.maxFrame
            · simp only [if_pos hc2]
              rfl
            · simp only [if_neg hc2]
              generalize Stream.tryDecodeFrame CI CA _ 0 = q
              cases q <;> rfl
          | some r =>
            obtain ⟨t, n⟩ := r
            right
            have hle := probeFrame_some_le _ _ hp
            have hp2 : probeFrame s.maxFrame (s.inputBuf ++ (a ++ b)) = .ok (some (t, n)) := by
              rw [← List.append_assoc]; exact probeFrame_some_append _ _ _ hp
            have htake : (s.inputBuf ++ (a ++ b)).take n = (s.inputBuf ++ a).take n := by
              rw [← List.append_assoc, List.take_append_of_le_length hle.2.1]
            have hdrop : (s.inputBuf ++ (a ++ b)).drop n = (s.inputBuf ++ a).drop n ++ b := by
              rw [← List.append_assoc, List.drop_append_of_le_length hle.2.1]
            unfold Stream.tryDecodeFrame
            dsimp only
            rw [hp, hp2]
            dsimp only
            rw [htake, hdrop]
            have failBoth : ∀ (e : StreamErr) (c : Prop) [Decidable c] (e' : StreamErr),
                Doomed (feed CI CA (erase (s.enterFailed e)) b) ∧
                Doomed (if c then erase (s.enterFailed .decode) else erase (s.enterFailed e')) := by
              intro e c _ e'
              refine ⟨failedFeed _ e rfl, ?_⟩
              split <;> exact .inl ⟨_, rfl⟩
            cases hw : wireDecode CI CA ((s.inputBuf ++ a).take n) with
            | error e => exact failBoth e _ e
            | ok r =>
              obtain ⟨c, m⟩ := r
              dsimp only
              by_cases hcn : c = n
              · simp only [hcn, ne_eq, not_true_eq_false, if_false]
                rw [dispatch_input_irrelevant s m 0 ((s.inputBuf ++ a).drop n),
                  dispatch_input_irrelevant s m 0 ((s.inputBuf ++ a).drop n ++ b)]
                cases hdp : Stream.dispatch CI CA s m 0 with
                | error e => exact failBoth e _ e
                | ok s1 =>
                  simp only [Except.map]
                  have hne2 : (s.inputBuf ++ a).drop n ++ b ≠ [] := by simp [hb]
                  rcases dispatch_phase hdp with h | h | h
                  · rw [h]
                    simp only [Stream.forbidsFurtherInput, true_and, hne2, not_false_eq_true, if_true,
                      ne_eq]
                    refine ⟨?_, by split <;> exact .inl ⟨_, rfl⟩⟩
                    split
                    · rename_i heq
                      split at heq
                      · cases heq
                      · injection heq with heq
                        subst heq
                        left
                        refine ⟨.decode, ?_⟩
                        unfold feed Stream.handleData
                        simp [erase, h, hb, Stream.enterFailed]
                    · exact failedFeed _ _ rfl
                  · rw [h]
                    simp only [Stream.forbidsFurtherInput, true_and, hne2, not_false_eq_true, if_true,
                      ne_eq]
                    refine ⟨?_, by split <;> exact .inl ⟨_, rfl⟩⟩
                    split
                    · rename_i heq
                      split at heq
                      · cases heq
                      · injection heq with heq
                        subst heq
                        exact feed_inSending (by rfl) (by rfl) b hb
                    · exact failedFeed _ _ rfl
                  · rw [h]
                    simp only [Stream.forbidsFurtherInput, Bool.false_eq_true, false_and, if_false]
                    refine ⟨feed_doomed (by rfl) b hb (.inr (.inr (by rfl))), ?_⟩
                    split
                    · exact .inl ⟨_, rfl⟩
                    · exact .inr (.inr (by rfl))
              · simp only [ne_eq, hcn, not_false_eq_true, if_true]
                exact failBoth _ _ _

theorem same_refl (s : Stream I A) : Same s s := .inl rfl

theorem feed_deadline {s : Stream I A} (d : Bytes) : (feed CI CA s d).deadline = none := rfl

theorem feed_same {s t : Stream I A} (hs : s.deadline = none) (ht : t.deadline = none) (h : Same s t)
    (d : Bytes) (hne : d ≠ []) : Same (feed CI CA s d) (feed CI CA t d) := by
  rcases h with rfl | ⟨h1, h2⟩
  · exact .inl rfl
  · exact .inr ⟨feed_doomed hs d hne h1, feed_doomed ht d hne h2⟩

theorem foldl_same : ∀ (cs : List Bytes) {s t : Stream I A}, s.deadline = none → t.deadline = none →
    Same s t → (∀ c ∈ cs, c ≠ []) → Same (cs.foldl (feed CI CA) s) (cs.foldl (feed CI CA) t)
  | [], _, _, _, _, h, _ => h
  | c :: cs, s, t, hs, ht, h, hne => by
    simp only [List.foldl_cons]
    exact foldl_same cs rfl rfl (feed_same hs ht h c (hne c (by simp)))
      (fun x hx => hne x (by simp [hx]))

theorem same_eof {s t : Stream I A} (hs : s.deadline = none) (ht : t.deadline = none) (h : Same s t) :
    outcome (feed CI CA s []) = outcome (feed CI CA t []) := by
  rcases h with rfl | ⟨h1, h2⟩
  · rfl
  · rw [eof_doomed hs h1, eof_doomed ht h2]

theorem foldl_deadline : ∀ (cs : List Bytes) {s : Stream I A}, s.deadline = none →
    (cs.foldl (feed CI CA) s).deadline = none
  | [], _, h => h
  | _ :: cs, _, _ => by
    simp only [List.foldl_cons]
    exact foldl_deadline cs rfl

/-- Any chunking is equivalent to one chunk. -/
theorem foldl_flatten : ∀ (cs : List Bytes) (s : Stream I A), s.deadline = none → cs ≠ [] →
    (∀ c ∈ cs, c ≠ []) →
    outcome (feed CI CA (cs.foldl (feed CI CA) s) []) = outcome (feed CI CA (feed CI CA s cs.flatten) [])
  | [], _, _, h, _ => absurd rfl h
  | [c], s, _, _, _ => by simp
  | c :: d :: cs, s, hs, _, hne => by
    have hc := hne c (by simp)
    have hd := hne d (by simp)
    have hcd : c ++ d ≠ [] := by simp [hc]
    have hrec := foldl_flatten ((c ++ d) :: cs) s hs (by simp) (by
      intro x hx
      rcases List.mem_cons.1 hx with rfl | hx
      · exact hcd
      · exact hne x (by simp [hx]))
    simp only [List.flatten_cons, List.append_assoc] at hrec ⊢
    rw [← hrec]
    simp only [List.foldl_cons]
    refine same_eof ?_ ?_ (foldl_same cs rfl rfl (feed_split hs c d hc hd) (fun x hx => hne x (by simp [hx])))
    · exact foldl_deadline cs rfl
    · exact foldl_deadline cs rfl
termination_by cs => cs.length

end
end Verif
