import Verif.Proof.BridgeLife
import Verif.Proof.CoordKinds
import Verif.Spec.Report
/-
What becomes of an exchange: at most one payload, then at most one report, which tells the truth.
-/
namespace Verif
open Spec
namespace Coord
variable {I A : Type} [DecidableEq I] [DecidableEq A] {cfg : Cfg I A} {env : Env I A} {X : XCfg} {T : TEnv} {N : Nat → Bridge I A → Prop} {L : Prop}

omit [DecidableEq I] in
/-- A freshly opened stream. -/
theorem opened_life {e : Ep I A} {mint : Mint A} {now : Nat} {s : Stream I A} [DecidableEq I]
    (h : (e.step cfg env (mintOp mint now)).2 = .stream (some s)) :
    Life s.phase 0 s ∧ s.endpointEvents = [] ∧ Sent s = False := by
  cases mint with
  | outbound sid =>
    simp only [mintOp, Ep.step, Ep.Out.stream.injEq] at h
    unfold Ep.dialSucceeded at h
    split at h
    · cases h
    · simp only [] at h
      split at h
      · cases h
      · split at h
        · cases h
        · simp only [Option.some.injEq] at h
          subst h
          exact ⟨⟨rfl, rfl, rfl⟩, rfl, rfl⟩
  | inbound peer =>
    simp only [mintOp, Ep.step, Ep.Out.stream.injEq] at h
    unfold Ep.acceptStream at h
    split at h
    · cases h
    · simp only [Option.some.injEq] at h
      subst h
      exact ⟨⟨rfl, rfl, rfl, rfl⟩, rfl, rfl⟩

/-- What an exchange that is over came to. -/
def Over (x : Nat) (l : List (Told I A)) : Prop :=
  ∃ (p : Option (PayloadEvent I A)) (r : Option (Completion A)),
    l = p.toList.map .payload ++ r.toList.map .report ∧
    ∀ c, r = some c → c.exchange = x ∧ (c.ok = true → c.kind ≠ .userMessage → ∃ ev, p = some ev ∧ AnswerTo c.kind ev) ∧
      (c.kind = .userMessage → p = none)

/-- A bridge without a stream has sent nothing. -/
def Bare (b : Bridge I A) : Prop := b.stream = none → b.isFailed = false → b.sentAny = false ∧ b.finSent = false

/-- What is known of an exchange that is not over. -/
def Under (v : XV I A) (b : Bridge I A) : Prop :=
  (b.stream = none → v.log.filterMap toldOf = []) ∧
  (b.stream ≠ none → ∃ (p0 : Phase) (ps : List (PayloadEvent I A)), v.log.filterMap toldOf = ps.map .payload ∧ Bridge.BLife p0 ps.length b ∧
    (∀ ev ∈ ps, Fits p0 ev) ∧
    ∀ m kind, v.info = some m → m.kind = some kind → ∃ k, p0 = .outSending k ∧ KindFits k kind)

/-- The invariant. -/
def VLife (x : Nat) (v : XV I A) : Prop :=
  (v.born = false → v.log.filterMap toldOf = []) ∧
  match v.br with
  | none => Over x (v.log.filterMap toldOf)
  | some b => Under v b ∧ Bare b

omit [DecidableEq I] [DecidableEq A] in
theorem told_plain {op : Ep.Op I A} (h : Plain op) : toldOf op = none := by
  unfold Plain at h
  unfold toldOf
  split at h <;> first | exact h.elim | rfl | skip
  split <;> first | rfl | simp_all

omit [DecidableEq I] [DecidableEq A] in
theorem told_report (x : Nat) (m : XMeta A) (ok : Bool) :
    (report x m ok : List (Ep.Op I A)).filterMap toldOf =
      (m.kind.map (fun kind => (⟨x, m.peer, ok, kind⟩ : Completion A))).toList.map .report := by
  unfold report
  cases m.kind <;> rfl

omit [DecidableEq I] [DecidableEq A] in
theorem told_giveUp (m : XMeta A) : (giveUp m : List (Ep.Op I A)).filterMap toldOf = [] := by
  unfold giveUp
  split <;> rfl

omit [DecidableEq I] [DecidableEq A] in
theorem told_mint (mint : Mint A) (now : Nat) : toldOf (mintOp mint now : Ep.Op I A) = none := by
  cases mint <;> rfl

/-- The bridge goes on. -/
theorem Under.go {v : XV I A} {b b' : Bridge I A} (h : Under v b) (hs : b'.stream = none ↔ b.stream = none)
    (hl : ∀ p0 n, Bridge.BLife p0 n b → Bridge.BLife p0 n b') : Under { v with br := some b' } b' := by
  refine ⟨fun hn => h.1 (hs.1 hn), fun hn => ?_⟩
  obtain ⟨p0, ps, h1, h2, h3, h4⟩ := h.2 (fun h => hn (hs.2 h))
  exact ⟨p0, ps, h1, hl _ _ h2, h3, h4⟩

omit [DecidableEq I] [DecidableEq A] in
theorem one_payload {ps : List (PayloadEvent I A)} {n : Nat} (h : ps.length + n ≤ 1) :
    ∃ p : Option (PayloadEvent I A), ps = p.toList := by
  cases ps with
  | nil => exact ⟨none, rfl⟩
  | cons p l =>
    cases l with
    | nil => exact ⟨some p, rfl⟩
    | cons q l => simp at h; omega

/-- How an exchange ends. -/
theorem Under.over {v : XV I A} {b : Bridge I A} {m : XMeta A} {x : Nat} (h : Under v b) (hi : v.info = some m)
    (ok : Bool) (hok : ok = true → b.phase = .bothClosed) (he : b.evs = []) (hidle : b.stream = none → b.phase ≠ .bothClosed)
    (l : List (Told I A))
    (hl : l = v.log.filterMap toldOf ++
      (m.kind.map (fun kind => (⟨x, m.peer, ok, kind⟩ : Completion A))).toList.map .report) : Over x l := by
  by_cases hs : b.stream = .none
  · rw [h.1 hs] at hl
    refine ⟨.none, _, hl, fun c hc => ?_⟩
    cases hk : m.kind with
    | none => rw [hk] at hc; cases hc
    | some kind =>
      rw [hk] at hc; cases hc
      exact ⟨rfl, fun hok' => absurd (hok hok') (hidle hs), fun _ => rfl⟩
  · obtain ⟨p0, ps, h1, h2, h3, h4⟩ := h.2 hs
    have hc1 := h2.cnt.1
    obtain ⟨p, hp⟩ := one_payload hc1
    subst hp
    refine ⟨p, _, by rw [hl, h1], fun c hc => ?_⟩
    cases hk : m.kind with
    | none => rw [hk] at hc; cases hc
    | some kind =>
      rw [hk] at hc; cases hc
      obtain ⟨k, e0, hf⟩ := h4 m kind hi hk
      subst e0
      refine ⟨rfl, fun hok' hne => ?_, fun hu => ?_⟩
      · have hb := hok hok'
        cases hst : b.stream with
        | none => exact absurd hst hs
        | some s =>
          have ha := h2.live (by unfold Bridge.isFailed; rw [hb]) s hst
          have hsent := ha.fin (ha.send (.inr hb))
          have hset := ha.recv (.inr hb)
          have hdone : s.phase = .done := by
            unfold Sent at hsent
            unfold Settled at hset
            revert hsent hset
            cases s.phase <;> simp
          have hlife := ha.life
          unfold Life at hlife
          rw [hdone] at hlife
          have hx : Expects (.outSending k) := by
            intro hk'
            subst hk'
            cases kind <;> first | exact hf.elim | exact hne rfl
          have h5 := hlife.2.2.1 hx
          have h6 : s.endpointEvents = [] := by simpa [Bridge.evs, hst] using he
          rw [h6] at h5
          cases p with
          | none => simp at h5
          | some ev =>
            refine ⟨ev, rfl, ?_⟩
            have := h3 ev (by simp)
            revert this hf
            cases k <;> cases kind <;> cases ev <;> simp [KindFits, Fits, AnswerTo]
      · cases p with
        | none => rfl
        | some ev =>
          exfalso
          have := h3 ev (by simp)
          revert this hf
          simp only [] at hu
          subst hu
          cases k <;> cases ev <;> simp [KindFits, Fits]

omit [DecidableEq I] [DecidableEq A] in
theorem Bare.fail (b : Bridge I A) (r : LinkFail) : Bare (b.fail r) :=
  fun _ hf => by rw [Bridge.fail_failed] at hf; cases hf

omit [DecidableEq I] [DecidableEq A] in
theorem Bare.intake {b : Bridge I A} (h : Bare b) (d : Bytes) : Bare (b.intakeHandshaking d) := by
  unfold Bridge.intakeHandshaking
  simp only []
  split
  · exact .fail _ _
  · exact h

theorem Bare.feed {b : Bridge I A} (h : Bare b) (d : Bytes) (now : Nat) : Bare (b.feed env.CI env.CA T d now) := by
  cases hs : b.stream with
  | some s =>
    intro hn
    rw [(Bridge.Kin.feed b d now).nos, hs] at hn
    cases hn
  | none =>
    unfold Bridge.feed
    rw [hs]
    simp only []
    split
    · exact h
    · split
      · split
        · exact .fail _ _
        · refine Bare.intake (b := { b with pendingEof := true, stream := none }) ?_ _
          exact fun _ hf => h hs hf
      · exact h.intake _

theorem Bare.feedAll {b : Bridge I A} (h : Bare b) (bytes : Bytes) (eof : Bool) (now : Nat) :
    Bare (feedAll env T bytes eof now b) := by
  unfold Coord.feedAll
  by_cases hb : bytes = [] <;> cases eof <;> simp only [hb, if_true, if_false, Bool.false_eq_true]
  · exact h
  · exact h.feed _ _
  · exact h.feed _ _
  · exact (h.feed _ _).feed _ _

theorem Bare.bstep {b b' : Bridge I A} (h : Bare b) (hb : BStep env T b b') : Bare b' := by
  intro hn
  have hs := (Kin.bstep hb).nos.1 hn
  cases hb with
  | replay now =>
    have e : b.replay env.CI env.CA T now = b := by unfold Bridge.replay; rw [hs]
    rw [e]; exact h hs
  | pumpOut now =>
    have hp := Bridge.pumpOut_cases (T := T) b now
    generalize b.pumpOut T now = b' at hp hn
    cases hp with
    | idle => exact h hs
    | expired => exact Bare.fail _ _ hn
    | failed _ h1 => rw [hs] at h1; cases h1
    | late _ h1 => rw [hs] at h1; cases h1
    | quiet _ _ _ h1 => rw [hs] at h1; cases h1
    | broken _ _ _ _ h1 => rw [hs] at h1; cases h1
    | sent _ _ _ _ _ h1 => rw [hs] at h1; cases h1

theorem feedAll_life {p0 : Phase} {n : Nat} {b : Bridge I A} (h : Bridge.BLife p0 n b) (bytes : Bytes) (eof : Bool)
    (now : Nat) : Bridge.BLife p0 n (feedAll env T bytes eof now b) := by
  unfold feedAll
  by_cases hb : bytes = [] <;> cases eof <;> simp only [hb, if_true, if_false, Bool.false_eq_true]
  · exact h
  · exact Bridge.feed_life h _ _
  · exact Bridge.feed_life h _ _
  · exact Bridge.feed_life (Bridge.feed_life h _ _) _ _

theorem VLife.first {x : Nat} {ring ring' : Option Keyring} {v v' : XV I A} {op : XOp I A} {em : List (XEmit A)}
    (hok : VOk cfg x ring v) (h : VLife x v) (hf : VFirst cfg env X T x ring v op em ring' v') : VLife x v' := by
  have go : ∀ (v' : XV I A) (f : Bridge I A → Bridge I A), v'.born = v.born → v'.log = v.log → v'.info = v.info →
      v'.br = v.br.map f →
      (∀ b, (f b).stream = none ↔ b.stream = none) → (∀ b p0 n, Bridge.BLife p0 n b → Bridge.BLife p0 n (f b)) → (∀ b, Bare b → Bare (f b)) → VLife x v' := by
    intro v' f e1 e2 e3 e4 hn hl hba
    obtain ⟨h1, h2⟩ := h
    refine ⟨by rw [e1, e2]; exact h1, ?_⟩
    rw [e4]
    cases hb : v.br with
    | none => rw [hb] at h2; rw [e2]; exact h2
    | some b =>
      rw [hb] at h2
      simp only [Option.map_some]
      have := Under.go (b' := f b) h2.1 (hn b) (hl b)
      refine ⟨⟨fun h => by rw [e2]; exact this.1 h, fun h => ?_⟩, hba b h2.2⟩
      obtain ⟨p0, ps, g1, g2, g3, g4⟩ := this.2 h
      exact ⟨p0, ps, by rw [e2]; exact g1, g2, g3, fun m kind hm hk => g4 m kind (by rw [← e3]; exact hm) hk⟩
  have same : ∀ (v' : XV I A), v'.born = v.born → v'.log = v.log → v'.info = v.info → v'.br = v.br → VLife x v' :=
    fun v' e1 e2 e3 e4 => go v' id e1 e2 e3 (by rw [e4]; simp) (fun _ => Iff.rfl) (fun _ _ _ h => h) (fun _ h => h)
  have hfail : ∀ (b : Bridge I A) r, (b.fail r).stream = none ↔ b.stream = none := fun b r => (Bridge.Kin.fail b r).nos
  cases hf with
  | keep => exact h
  | feed bytes eof now => exact go _ _ rfl rfl rfl rfl (fun b => (Kin.feedAll b _ _ _).nos) (fun b p0 n h => feedAll_life h _ _ _) (fun b h => h.feedAll _ _ _)
  | dialFailed => exact go _ _ rfl rfl rfl rfl (fun b => hfail b _) (fun b p0 n h => h.fail _) (fun b _ => .fail b _)
  | transportError => exact go _ _ rfl rfl rfl rfl (fun b => hfail b _) (fun b p0 n h => h.fail _) (fun b _ => .fail b _)
  | leave => exact same _ rfl rfl rfl rfl
  | encrypt => exact go _ _ rfl rfl rfl rfl (fun b => hfail { b with ring := _ } _) (fun b p0 n h => Bridge.setEncryption_life h _) (fun b _ => .fail _ _)
  | compress => exact go _ _ rfl rfl rfl rfl (fun b => Iff.rfl) (fun b p0 n h => Bridge.setCompression_life h _) (fun b h => h)
  | popOut => exact same _ rfl rfl rfl rfl
  | popConnect => exact same _ rfl rfl rfl rfl
  | popDown => exact same _ rfl rfl rfl rfl
  | accept src now cmp hb =>
    refine ⟨fun h => (by cases h), ⟨fun _ => h.1 hb, fun h => absurd rfl h⟩, fun _ _ => ⟨rfl, rfl⟩⟩

theorem VLife.step {x : Nat} {ring : Option Keyring} {v v' : XV I A}
    (hok : VOk cfg x ring v) (h : VLife x v) (hf : VStep cfg env X T N L Meant x ring v v') : VLife x v' := by
  have hbn : ∀ b, v.br = some b → v.born = true := by
    intro b hb
    cases hn : v.born with
    | true => rfl
    | false => rw [(hok.born hn).1] at hb; cases hb
  have hund : ∀ b, v.br = some b → Under v b := by
    intro b hb
    have := h.2
    rw [hb] at this
    exact this.1
  have hbare : ∀ b, v.br = some b → Bare b := by
    intro b hb
    have := h.2
    rw [hb] at this
    exact this.2
  have hidle : ∀ b m, v.br = some b → v.info = some m → b.stream = none → b.phase ≠ .bothClosed := by
    intro b m hb hm hs hp
    rcases (hok.br b m hb hm).idle hs with h1 | h1
    · rw [h1] at hp; cases hp
    · unfold Bridge.isFailed at h1; rw [hp] at h1; cases h1
  cases hf with
  | refl => exact h
  | call op hp =>
    have e : (v.log ++ [op]).filterMap toldOf = v.log.filterMap toldOf := by simp [told_plain hp]
    obtain ⟨h1, h2⟩ := h
    refine ⟨fun hb => by simp only [e]; exact h1 hb, ?_⟩
    simp only []
    cases hb : v.br with
    | none => rw [hb] at h2; simp only [e]; exact h2
    | some b =>
      rw [hb] at h2
      refine ⟨?_, h2.2⟩
      simp only [Under, e]
      exact h2.1
  | @bridge b b' hb hs =>
    refine ⟨fun hn => (by rw [show _ = true from hbn b hb] at hn; cases hn), ?_⟩
    refine ⟨(hund b hb).go (Kin.bstep hs).nos ?_, (hbare b hb).bstep hs⟩
    · intro p0 n hl
      cases hs with
      | replay now => exact Bridge.replay_life hl now
      | pumpOut now => exact Bridge.pumpOut_life hl (Bridge.pumpOut_cases b now)
  | @commit b s ev rest r cmp e now hb hs he hlate hc =>
    refine ⟨fun hn => (by rw [show _ = true from hbn b hb] at hn; cases hn), ?_⟩
    have hu := hund b hb
    obtain ⟨p0, ps, h1, h2, h3, h4⟩ := hu.2 (by rw [hs]; simp)
    have hl := Bridge.commitOne_life h2 hs he hc
    have hst : r.2.stream ≠ none := by
      intro hn
      have := (Bridge.Kin.commitOne hs hc).nos
      rw [hn, hs] at this
      simp at this
    refine ⟨⟨fun hn => absurd hn hst, fun _ => ⟨p0, ps ++ [ev], ?_, ?_, ?_, h4⟩⟩, fun hn => absurd hn hst⟩
    · simp only [List.filterMap_append, h1, List.map_append]; rfl
    · simpa using hl
    · intro ev' hev
      rcases List.mem_append.1 hev with hev | hev
      · exact h3 ev' hev
      · simp only [List.mem_singleton] at hev
        subst hev
        exact h2.cnt.2 ev' (by simp [Bridge.evs, hs, he])
  | @shutdown b m hb ht hf hi hfe =>
    refine ⟨fun hn => (by rw [show _ = true from hbn b hb] at hn; cases hn), ?_⟩
    simp only [hb]
    have hu := hund b hb
    refine ⟨⟨hu.1, fun hn => ?_⟩, hbare b hb⟩
    obtain ⟨p0, ps, h1, h2, h3, h4⟩ := hu.2 hn
    exact ⟨p0, ps, h1, h2, h3, fun m' kind hm hk => by cases hm; exact h4 m kind hi hk⟩
  | @collect b m hb hi =>
    refine ⟨fun hn => (by rw [show _ = true from hbn b hb] at hn; cases hn), ?_⟩
    exact ⟨(hund b hb).go Iff.rfl (fun p0 n h => Bridge.transmit_life h), hbare b hb⟩
  | @reapFailed b m hb hi hfl he =>
    refine ⟨fun hn => (by rw [show _ = true from hbn b hb] at hn; cases hn), ?_⟩
    refine (hund b hb).over hi false (by simp) he (hidle b m hb hi) _ ?_
    simp only [List.filterMap_append, told_report, told_giveUp, List.append_nil]
  | @reapClosed b m hb hi hph he =>
    refine ⟨fun hn => (by rw [show _ = true from hbn b hb] at hn; cases hn), ?_⟩
    refine (hund b hb).over hi true (fun _ => hph) he (hidle b m hb hi) _ ?_
    simp only [List.filterMap_append, told_report, told_giveUp, List.append_nil]
  | dial peer sid deadline cmp kind hb =>
    refine ⟨fun h => (by cases h), ⟨fun _ => h.1 hb, fun h => absurd rfl h⟩, fun _ _ => ⟨rfl, rfl⟩⟩
  | @mintOk b m mint s e now hb hi ht hh hmi hst hK =>
    refine ⟨fun hn => (by rw [show _ = true from hbn b hb] at hn; cases hn), ?_⟩
    have hn := (hok.br b m hb hi).mint.1 (by rw [hmi]; rfl)
    have h0 := (hund b hb).1 hn
    obtain ⟨g1, g2, g3⟩ := opened_life hst
    have hna : b.sentAny = false ∧ b.finSent = false := hbare b hb hn (by
      cases hf : b.isFailed with
      | false => rfl
      | true => rw [Bridge.terminal_of_failed hf] at ht; cases ht)
    refine ⟨⟨fun h => (by cases h), fun _ => ⟨s.phase, [], ?_, ⟨⟨?_, ?_⟩, fun _ s' hs' => ?_⟩, by simp, ?_⟩⟩, fun h => (by cases h)⟩
    · simp [h0, told_mint]
    · simp [Bridge.evs, Bridge.promote, g2]
    · simp [Bridge.evs, Bridge.promote, g2]
    · cases hs'
      refine ⟨g1, fun h => ?_, fun h => ?_, fun h => ?_, fun h => ?_⟩
      · have h' : b.sentAny = true := h
        rw [hna.1] at h'; cases h'
      · have h' : b.finSent = true := h
        rw [hna.2] at h'; cases h'
      · rcases h with h | h <;> cases h
      · rcases h with h | h <;> cases h
    · intro m' kind hm hk
      cases hm
      exact hK kind hk
  | @mintOut b m sid now hb hi ht hh hmi =>
    refine ⟨fun hn => (by rw [show _ = true from hbn b hb] at hn; cases hn), ?_⟩
    have hn := (hok.br b m hb hi).mint.1 (by rw [hmi]; rfl)
    refine (hund b hb).over hi false (by simp) (by simp [Bridge.evs, hn]) (hidle b m hb hi) _ ?_
    simp only [List.filterMap_append, told_report, List.filterMap_cons, List.filterMap_nil, toldOf, List.append_nil]
  | @mintIn b m peer now hb hi ht hh hmi =>
    refine ⟨fun hn => (by rw [show _ = true from hbn b hb] at hn; cases hn), ?_⟩
    have hn := (hok.br b m hb hi).mint.1 (by rw [hmi]; rfl)
    have h0 := (hund b hb).1 hn
    refine ⟨none, none, ?_, by simp⟩
    simp [h0, toldOf]
  | cancel hL hc ho =>
    obtain ⟨h1, h2⟩ := h
    refine ⟨h1, ?_⟩
    cases hb : v.br with
    | none => rw [hb] at h2; exact h2
    | some b =>
      rw [hb] at h2
      by_cases hs : b.stream = none
      · exact ⟨none, none, by simp [h2.1.1 hs], by simp⟩
      · obtain ⟨p0, ps, g1, g2, _⟩ := h2.1.2 hs
        obtain ⟨p, hp⟩ := one_payload g2.cnt.1
        exact ⟨p, none, by simp [g1, hp], by simp⟩

/-- After every history, everything the endpoint was told of an exchange is at most one payload, and then at most one
report. -/
theorem life_run {t0 : Nat} {e0 : Ep I A} (hnew : Ep.tryNew cfg env t0 = .ok e0) (cmp : CmpOptions)
    (ops : List (XOp I A)) (x : Nat) : VLife x (((Coord.new e0 cmp).run cfg env X T ops).view x) := by
  refine view_run (P := fun _ _ v => VLife x v) hnew cmp x ?_ ?_ ?_ ops
  · exact ⟨fun _ => rfl, none, none, rfl, by simp⟩
  · intro h ring v op em ring' v' hok _ hp hf
    exact hp.first hok hf
  · intro N L h ring v v' _ hok hp hf
    exact hp.step hok hf

/-! ### Nothing ends unreported -/

/-- One call, seen from one exchange. -/
theorem view_once {P : XV I A → Prop} {t0 : Nat} {e0 : Ep I A} (hnew : Ep.tryNew cfg env t0 = .ok e0) (cmp : CmpOptions)
    (ops : List (XOp I A)) (op : XOp I A) (x : Nat) (h0 : P (((Coord.new e0 cmp).run cfg env X T ops).view x))
    (hf : ∀ ring v em ring' v', VOk cfg x ring v → P v → VFirst cfg env X T x ring v op em ring' v' → P v')
    (hm : ∀ ring v v', VOk cfg x ring v → P v →
      VStep cfg env X T (At op) (∃ now f, op = .leave now f) Meant x ring v v' → P v') :
    P (((Coord.new e0 cmp).run cfg env X T (ops ++ [op])).view x) := by
  have hr0 := Ep.reachable_new hnew
  rw [xrun_snoc]
  have hs := shape_run (cfg := cfg) (env := env) (X := X) (T := T) e0 cmp ops
  have hk := kinded_run (cfg := cfg) (env := env) (X := X) (T := T) hnew cmp ops
  revert h0 hs hk
  generalize (Coord.new e0 cmp).run cfg env X T ops = c
  intro h0 hs hk
  obtain ⟨c1, h1, h2⟩ := step_moves (cfg := cfg) (env := env) (X := X) (T := T) c op
  have h3 := hf _ _ _ _ _ (vok hs x) h0 (view_first hs h1 x)
  have h5 : Shape cfg env e0 (c.step cfg env X T op).1 ∧ Kinded (c.step cfg env X T op).1 ∧
      P ((c.step cfg env X T op).1.view x) := by
    refine h2.inv (P := fun c' => Shape cfg env e0 c' ∧ Kinded c' ∧ P (c'.view x)) ?_
      ⟨hs.first h1 (order_mem T), hk.first hs h1, h3⟩
    rintro c' c'' hmv ⟨g1, g2, g3⟩
    exact ⟨g1.move hmv, g2.move hr0 g1 hmv,
      hm _ _ _ (vok g1 x) g3 (view_move g1 hmv (fun y m mint s now h1 h2 h3 => g2.meant h1 h2 h3) x)⟩
  exact h5.2.2

/-- Only exchanges this node dialled have a kind. -/
theorem kind_outbound {t0 : Nat} {e0 : Ep I A} (hnew : Ep.tryNew cfg env t0 = .ok e0) (cmp : CmpOptions)
    (ops : List (XOp I A)) (x : Nat) :
    ∀ m, (((Coord.new e0 cmp).run cfg env X T ops).view x).info = some m → m.kind ≠ none → m.outbound = true := by
  refine view_run (P := fun _ _ v => ∀ m, v.info = some m → m.kind ≠ none → m.outbound = true) hnew cmp x ?_ ?_ ?_ ops
  · intro m h; cases h
  · intro h ring v op em ring' v' hok _ hp hf
    cases hf with
    | accept => intro m hm hk; cases hm; exact absurd rfl hk
    | _ => exact hp
  · intro N L h ring v v' _ hok hp hf
    cases hf with
    | shutdown h1 h2 h3 h4 h5 => intro m hm hk; cases hm; have := hp _ h4 hk; exact this
    | mintOk e now h1 h2 h3 h4 h5 h6 h7 => intro m hm hk; cases hm; have := hp _ h2 hk; exact this
    | dial => intro m hm hk; cases hm; rfl
    | refl => exact hp
    | call => exact hp
    | bridge => exact hp
    | commit => exact hp
    | collect => exact hp
    | _ => intro m hm; cases hm

/-- Every exchange of a kind that is no longer held after a call other than `leave` was reported in that call. -/
theorem reported {t0 : Nat} {e0 : Ep I A} (hnew : Ep.tryNew cfg env t0 = .ok e0) (cmp : CmpOptions)
    (ops : List (XOp I A)) (op : XOp I A) (hop : ∀ now f, op ≠ .leave now f) (x : Nat) {m : XMeta A} {kind : ExKind}
    (hm : (((Coord.new e0 cmp).run cfg env X T ops).view x).info = some m) (hk : m.kind = some kind)
    (hgone : (((Coord.new e0 cmp).run cfg env X T (ops ++ [op])).view x).info = none) :
    ∃ ok, Told.report ⟨x, m.peer, ok, kind⟩ ∈
      ((((Coord.new e0 cmp).run cfg env X T (ops ++ [op])).view x).log.filterMap toldOf) := by
  have ho := kind_outbound (X := X) (T := T) hnew cmp ops x m hm (by rw [hk]; simp)
  have key := view_once (X := X) (T := T)
    (P := fun v => (∃ m', v.info = some m' ∧ m'.kind = some kind ∧ m'.peer = m.peer ∧ m'.outbound = true) ∨
      (v.info = none ∧ v.born = true ∧ ∃ ok, Told.report ⟨x, m.peer, ok, kind⟩ ∈ v.log.filterMap toldOf))
    hnew cmp ops op x (.inl ⟨m, hm, hk, rfl, ho⟩) ?_ ?_
  · rcases key with ⟨m', h1, _⟩ | ⟨_, _, h⟩
    · rw [hgone] at h1; cases h1
    · exact h
  · intro ring v em ring' v' hok hp hf
    cases hf with
    | accept src now cmp hb =>
      rcases hp with ⟨m', h1, _⟩ | ⟨_, h1, _⟩
      · rw [(hok.born hb).2.1] at h1; cases h1
      · rw [hb] at h1; cases h1
    | _ => exact hp
  · intro ring v v' hok hp hf
    have hrep : ∀ m' ok, m'.kind = some kind → m'.peer = m.peer → ∀ (l l' : List (Ep.Op I A)),
        Told.report ⟨x, m.peer, ok, kind⟩ ∈ (l ++ report x m' ok ++ l').filterMap toldOf := by
      intro m' ok hk' hp' l l'
      simp only [List.filterMap_append, told_report, hk', hp']
      simp
    have hlog : ∀ (l : List (Ep.Op I A)), (∃ ok, Told.report ⟨x, m.peer, ok, kind⟩ ∈ v.log.filterMap toldOf) →
        ∃ ok, Told.report ⟨x, m.peer, ok, kind⟩ ∈ (v.log ++ l).filterMap toldOf := by
      rintro l ⟨ok, h⟩
      exact ⟨ok, by simp only [List.filterMap_append]; exact List.mem_append_left _ h⟩
    cases hf with
    | refl => exact hp
    | call op' hpl =>
      rcases hp with hp | ⟨h1, h2, h3⟩
      · exact .inl hp
      · exact .inr ⟨h1, h2, hlog _ h3⟩
    | bridge => exact hp
    | commit cmp e now hb =>
      rcases hp with hp | ⟨h1, h2, h3⟩
      · exact .inl hp
      · exact .inr ⟨h1, h2, hlog _ h3⟩
    | @shutdown b m1 hb ht hf hi hfe =>
      rcases hp with ⟨m', h1, h2, h3, h4⟩ | ⟨h1, _⟩
      · rw [hi] at h1; cases h1; exact .inl ⟨_, rfl, h2, h3, h4⟩
      · rw [hi] at h1; cases h1
    | collect => exact hp
    | @reapFailed b m1 hb hi hfl he =>
      rcases hp with ⟨m', h1, h2, h3, h4⟩ | ⟨h1, _⟩
      · rw [hi] at h1; cases h1
        refine .inr ⟨rfl, ?_, false, hrep m1 false h2 h3 _ _⟩
        cases hn : v.born with
        | true => rfl
        | false => rw [(hok.born hn).1] at hb; cases hb
      · rw [hi] at h1; cases h1
    | @reapClosed b m1 hb hi hph he =>
      rcases hp with ⟨m', h1, h2, h3, h4⟩ | ⟨h1, _⟩
      · rw [hi] at h1; cases h1
        refine .inr ⟨rfl, ?_, true, hrep m1 true h2 h3 _ _⟩
        cases hn : v.born with
        | true => rfl
        | false => rw [(hok.born hn).1] at hb; cases hb
      · rw [hi] at h1; cases h1
    | dial peer sid deadline cmp kind' hb =>
      rcases hp with ⟨m', h1, _⟩ | ⟨_, h1, _⟩
      · rw [(hok.born hb).2.1] at h1; cases h1
      · rw [hb] at h1; cases h1
    | @mintOk b m1 mint s e now hb hi ht hh hmi hst hK =>
      rcases hp with ⟨m', h1, h2, h3, h4⟩ | ⟨h1, _⟩
      · rw [hi] at h1; cases h1; exact .inl ⟨_, rfl, h2, h3, h4⟩
      · rw [hi] at h1; cases h1
    | @mintOut b m1 sid now hb hi ht hh hmi =>
      rcases hp with ⟨m', h1, h2, h3, h4⟩ | ⟨h1, _⟩
      · rw [hi] at h1; cases h1
        refine .inr ⟨rfl, ?_, false, ?_⟩
        · cases hn : v.born with
          | true => rfl
          | false => rw [(hok.born hn).1] at hb; cases hb
        · have := hrep m1 false h2 h3 (v.log ++ [.dialSucceeded sid now]) []
          rw [List.append_nil] at this
          exact this
      · rw [hi] at h1; cases h1
    | @mintIn b m1 peer now hb hi ht hh hmi =>
      rcases hp with ⟨m', h1, h2, h3, h4⟩ | ⟨h1, _⟩
      · rw [hi] at h1; cases h1
        rw [((hok.br b m1 hb hi).inb peer hmi).1] at h4; cases h4
      · rw [hi] at h1; cases h1
    | cancel hL => exact absurd hL.choose_spec.choose_spec (hop _ _)

end Coord
end Verif
