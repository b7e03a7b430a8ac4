import Verif.Proof.BridgeKin
/-
What pumping, minting and dialling leave of the exchanges. During a call an invariant of the bridges holds outside the
exchanges marked for pumping.
-/
namespace Verif
namespace Coord
variable {I A : Type} [DecidableEq I] [DecidableEq A] {cfg : Cfg I A} {env : Env I A} {X : XCfg} {T : TEnv}

/-- Outside `l`, every bridge satisfies `Q`. -/
def But (Q : Bridge I A → Prop) (l : List Nat) (c : Coord I A) : Prop :=
  ∀ x b, c.conns.get? x = some b → x ∉ l → Q b

variable {Q : Bridge I A → Prop}

theorem But.mono {l l' : List Nat} {c c' : Coord I A} (h : But Q l c)
    (hc : ∀ x b, c'.conns.get? x = some b → c.conns.get? x = some b) (hl : ∀ x ∈ l, x ∈ l') : But Q l' c' :=
  fun x b hb hx => h x b (hc x b hb) (fun hm => hx (hl x hm))

/-- Pumping at `now` establishes `Q` and handing out bytes keeps it. -/
structure Rests (now : Nat) (Q : Bridge I A → Prop) : Prop where
  pump : ∀ b, b.isTerminal = false → b.Calm → b.Swept now → Q b
  transmit : ∀ b, Q b → Q b.transmit.1

theorem mem_idInsert {x y : Nat} : ∀ {l : List Nat}, y ∈ idInsert x l ↔ y = x ∨ y ∈ l
  | [] => by simp [idInsert]
  | z :: zs => by
    have ih := mem_idInsert (x := x) (y := y) (l := zs)
    unfold idInsert
    split
    · simp
    · split
      · next h => subst h; simp
      · simp only [List.mem_cons, ih]
        constructor
        · rintro (h | h | h) <;> simp [h]
        · rintro (h | h | h) <;> simp [h]

theorem complete_conns (c : Coord I A) (x : Nat) (m : Option (XMeta A)) (ok : Bool) :
    (c.complete cfg env x m ok).conns = c.conns ∧ (c.complete cfg env x m ok).dirty = c.dirty := by
  unfold complete
  split
  · exact ⟨rfl, rfl⟩
  · split <;> exact ⟨rfl, rfl⟩

theorem collect_conns (c : Coord I A) (x : Nat) (b : Bridge I A) :
    (c.collect x b).1.conns = c.conns ∧ (c.collect x b).1.dirty = c.dirty := by
  unfold collect
  split
  · exact ⟨rfl, rfl⟩
  · split <;> exact ⟨rfl, rfl⟩

theorem reap_conns_eq (c : Coord I A) (x : Nat) (b : Bridge I A) :
    (c.reap cfg env x b).conns = c.conns.erase x ∧ (c.reap cfg env x b).dirty = c.dirty := by
  have h1 : (if b.isFailed = true then c.purge x else (c.collect x b).1).conns = c.conns ∧
      (if b.isFailed = true then c.purge x else (c.collect x b).1).dirty = c.dirty := by
    split
    · exact ⟨rfl, rfl⟩
    · exact collect_conns c x b
  unfold reap
  simp only []
  generalize (if b.isFailed = true then c.purge x else (c.collect x b).1) = c1 at h1
  have h2 := complete_conns (cfg := cfg) (env := env)
    ({ c1 with conns := c1.conns.erase x, metas := c1.metas.erase x } : Coord I A) x (c1.metas.get? x) (!b.isFailed)
  have h3 : ({ c1 with conns := c1.conns.erase x, metas := c1.metas.erase x } : Coord I A).conns = c.conns.erase x := by
    simp only [h1]
  rw [h3] at h2
  have h4 := h2.2.trans h1.2
  split
  · exact ⟨h2.1, h4⟩
  · exact ⟨h2.1, h4⟩

theorem maybeShutdown_conns (c : Coord I A) (x : Nat) (b : Bridge I A) :
    (c.maybeShutdown x b).conns = c.conns ∧ (c.maybeShutdown x b).dirty = c.dirty := by
  unfold maybeShutdown
  split
  · exact ⟨rfl, rfl⟩
  · split
    · exact ⟨rfl, rfl⟩
    · split <;> exact ⟨rfl, rfl⟩

/-- A bridge without a stream stays as it is, unless it fails; one with a stream keeps it. -/
def Idles (b b' : Bridge I A) : Prop :=
  (b.stream = none → b' = b ∨ b'.isFailed = true) ∧ (b.stream = none ↔ b'.stream = none)

theorem Idles.trans {a b d : Bridge I A} (h : Idles a b) (g : Idles b d) (hf : b.isFailed = true → d.isFailed = true) :
    Idles a d := by
  refine ⟨fun hn => ?_, h.2.trans g.2⟩
  rcases h.1 hn with e | e
  · subst e; exact g.1 hn
  · exact .inr (hf e)

theorem Idles.fail (b : Bridge I A) (r : LinkFail) : Idles b (b.fail r) :=
  ⟨fun _ => .inr (Bridge.fail_failed _ _), (Bridge.Kin.fail b r).nos.symm⟩

theorem Idles.replay (b : Bridge I A) (now : Nat) : Idles b (b.replay env.CI env.CA T now) := by
  refine ⟨fun hn => .inl ?_, (Bridge.Kin.replay b now).nos.symm⟩
  unfold Bridge.replay; rw [hn]

theorem Idles.pumpOut (b : Bridge I A) (now : Nat) : Idles b (b.pumpOut T now) := by
  refine ⟨fun hn => ?_, (Bridge.Kin.pumpOut (Bridge.pumpOut_cases b now)).nos.symm⟩
  unfold Bridge.pumpOut
  split
  · exact .inr (Bridge.fail_failed _ _)
  · rw [hn]; exact .inl rfl

theorem Idles.drainPayloadOnly (cmp : CmpOptions) (e : Ep I A) (b : Bridge I A) (now : Nat) :
    Idles b (b.drainPayloadOnly cfg env T cmp e now).2.1 := by
  have key : ∀ fuel (e : Ep I A) (b : Bridge I A) log, (b.stream = none → (Bridge.drainEvents cfg env T cmp now fuel e b log).2.1 = b) ∧
      (b.stream = none ↔ (Bridge.drainEvents cfg env T cmp now fuel e b log).2.1.stream = none) := by
    intro fuel
    induction fuel with
    | zero => intro e b log; exact ⟨fun _ => rfl, Iff.rfl⟩
    | succ fuel ih =>
      intro e b log
      simp only [Bridge.drainEvents]
      cases hs : b.stream with
      | none => simp [hs]
      | some s =>
        simp only []
        cases he : s.endpointEvents with
        | nil => simp [hs]
        | cons ev rest =>
          simp only []
          refine ⟨fun h => (by cases h), ?_⟩
          have hk := (Bridge.Kin.commitOne hs (Bridge.commitOne_cases (cfg := cfg) (env := env) (T := T) cmp now e b s ev rest)).nos
          rw [hs] at hk
          rw [← (ih _ _ _).2]
          exact hk.symm
  unfold Bridge.drainPayloadOnly
  split
  · exact ⟨fun h => .inl ((key _ _ _ _).1 h), (key _ _ _ _).2⟩
  · exact ⟨fun _ => .inl rfl, Iff.rfl⟩

/-- Pumping a bridge leaves the others alone, and the bridge at rest or gone. -/
theorem pumpOne_conns (now : Nat) (c : Coord I A) (x : Nat) :
    (c.pumpOne cfg env T now x).dirty = c.dirty ∧
    ((c.pumpOne cfg env T now x).conns = c.conns.erase x ∨
     ((c.conns.get? x = none) ∧ (c.pumpOne cfg env T now x).conns = c.conns) ∨
     ∃ b : Bridge I A, b.isTerminal = false ∧ b.Calm ∧ b.Swept now ∧ (∃ b0, c.conns.get? x = some b0 ∧ Idles b0 b) ∧
       (c.pumpOne cfg env T now x).conns = c.conns.insert x b) := by
  unfold pumpOne
  cases hx : c.conns.get? x with
  | none => exact ⟨rfl, .inr (.inl ⟨rfl, rfl⟩)⟩
  | some b =>
    simp only []
    have hsw : ((b.replay env.CI env.CA T now).pumpOut T now).isTerminal = false →
        ((b.replay env.CI env.CA T now).pumpOut T now).Swept now := fun h => Bridge.pumpOut_swept (Bridge.pumpOut_cases _ _) h
    have hid : Idles b ((b.replay env.CI env.CA T now).pumpOut T now) :=
      (Idles.replay b now).trans (Idles.pumpOut _ now) (Bridge.Kin.pumpOut (Bridge.pumpOut_cases _ _)).failed
    generalize (b.replay env.CI env.CA T now).pumpOut T now = b1 at hsw hid
    split
    · obtain ⟨h1, h2⟩ := reap_conns_eq (cfg := cfg) (env := env)
        (c.absorb x (b1.drainThenReap cfg env T c.cmp c.ep now).1 (b1.drainThenReap cfg env T c.cmp c.ep now).2.2) x
        (b1.drainThenReap cfg env T c.cmp c.ep now).2.1
      exact ⟨h2, .inl h1⟩
    · next ht =>
      generalize hc1 : ({ c with panicked := c.panicked || (b1.phase == Link.recvClosed && b1.stream.isNone) } : Coord I A) = c1
      have e1 : c1.conns = c.conns ∧ c1.dirty = c.dirty := by subst hc1; exact ⟨rfl, rfl⟩
      have hcalm : (b1.drainPayloadOnly cfg env T c.cmp c.ep now).2.1.isTerminal ≠ true →
          (b1.drainPayloadOnly cfg env T c.cmp c.ep now).2.1.Calm := by
        unfold Bridge.drainPayloadOnly
        split
        · intro _ _
          have := Bridge.drainEvents_done (cfg := cfg) (env := env) (T := T) c.cmp now b1.queued c.ep b1 [] (Nat.le_refl _)
          rw [Bridge.queued_evs] at this
          exact List.length_eq_zero_iff.1 this
        · next hp =>
          intro ht2 hl
          rcases hl with hl | hl
          · exact absurd hl hp
          · exact absurd hl ht2
      have hswept := Bridge.drainPayloadOnly_swept (cfg := cfg) (env := env) (T := T) c.cmp c.ep b1 now (hsw (by simpa using ht))
      have hid2 : Idles b1 (b1.drainPayloadOnly cfg env T c.cmp c.ep now).2.1 :=
        Idles.drainPayloadOnly c.cmp c.ep b1 now
      have hff : b1.isFailed = true → (b1.drainPayloadOnly cfg env T c.cmp c.ep now).2.1.isFailed = true :=
        fun h => absurd (Bridge.terminal_of_failed h) ht
      generalize b1.drainPayloadOnly cfg env T c.cmp c.ep now = r at hcalm hswept hid2 hff
      split
      · obtain ⟨h1, h2⟩ := reap_conns_eq (cfg := cfg) (env := env)
          ((c1.absorb x r.1 r.2.2).absorb x (r.2.1.drainThenReap cfg env T (c1.absorb x r.1 r.2.2).cmp (c1.absorb x r.1 r.2.2).ep now).1
            (r.2.1.drainThenReap cfg env T (c1.absorb x r.1 r.2.2).cmp (c1.absorb x r.1 r.2.2).ep now).2.2) x
          (r.2.1.drainThenReap cfg env T (c1.absorb x r.1 r.2.2).cmp (c1.absorb x r.1 r.2.2).ep now).2.1
        exact ⟨h2.trans e1.2, .inl (h1.trans (by show c1.conns.erase x = _; rw [e1.1]))⟩
      · next ht2 =>
        obtain ⟨h1, h2⟩ := maybeShutdown_conns (c1.absorb x r.1 r.2.2) x r.2.1
        refine ⟨h2.trans e1.2, .inr (.inr ⟨r.2.1, by simpa using ht2, hcalm ht2, hswept (by simpa using ht2), ⟨b, rfl, hid.trans hid2 hff⟩, ?_⟩)⟩
        simp only [h1]
        show c1.conns.insert x r.2.1 = _
        rw [e1.1]

theorem But.pumpOne' {x : Nat} {l : List Nat} {c : Coord I A} {now : Nat} (hQ : ∀ b : Bridge I A, b.isTerminal = false → b.Calm → b.Swept now → Q b) (h : But Q (x :: l) c) :
    But Q l (c.pumpOne cfg env T now x) := by
  intro y b hb hy
  obtain ⟨_, h1 | ⟨h0, h1⟩ | ⟨b', hb1, hb2, hb3, _, h1⟩⟩ := pumpOne_conns (cfg := cfg) (env := env) (T := T) now c x <;>
    rw [h1] at hb
  · rw [Map.get?_erase] at hb
    split at hb
    · cases hb
    · next hne => exact h y b hb (by simp [hy]; exact fun e => hne (by first | exact e | exact e.symm))
  · refine h y b hb ?_
    simp only [List.mem_cons, not_or]
    refine ⟨fun e => ?_, hy⟩
    rw [e, h0] at hb; cases hb
  · rw [Map.get?_insert] at hb
    split at hb
    · cases hb; exact hQ _ hb1 hb2 hb3
    · next hne => exact h y b hb (by simp [hy]; exact fun e => hne (by first | exact e | exact e.symm))

theorem But.pumpOne {x : Nat} {l : List Nat} {c : Coord I A} {now : Nat} (hQ : Rests now Q) (h : But Q (x :: l) c) :
    But Q l (c.pumpOne cfg env T now x) := But.pumpOne' hQ.pump h

theorem But.pumpFold {now : Nat} (hQ : Rests now Q) (l : List Nat) : ∀ c : Coord I A, But Q l c →
    But Q [] (l.foldl (Coord.pumpOne cfg env T now) c) ∧ (l.foldl (Coord.pumpOne cfg env T now) c).dirty = c.dirty := by
  induction l with
  | nil => intro c h; exact ⟨h, rfl⟩
  | cons x l ih =>
    intro c h
    have := ih _ (But.pumpOne (cfg := cfg) (env := env) (T := T) hQ h)
    exact ⟨this.1, this.2.trans (pumpOne_conns now c x).1⟩

theorem But.dirty {c : Coord I A} (h : But Q [] c) : But Q c.dirty c := But.mono h (fun _ _ h => h) (by simp)

theorem But.pump {now : Nat} (hQ : Rests now Q) {c : Coord I A} (h : But Q c.dirty c) :
    But Q [] (c.pump cfg env T now) ∧ (c.pump cfg env T now).dirty = [] := by
  unfold Coord.pump
  exact But.pumpFold hQ c.dirty { c with dirty := [] } h

theorem But.collectTransmits {now : Nat} (hQ : Rests now Q) {c : Coord I A} (h : But Q [] c) :
    But Q [] c.collectTransmits := by
  unfold Coord.collectTransmits
  have h0 : But Q [] ({ c with pumped := [] } : Coord I A) := h
  revert h0
  generalize ({ c with pumped := [] } : Coord I A) = c1
  generalize c.pumped = l
  intro h0
  induction l generalizing c1 with
  | nil => exact h0
  | cons x l ih =>
    simp only [List.foldl_cons]
    refine ih _ ?_
    split
    · exact h0
    · next b hb =>
      intro y b' hy hn
      simp only [(collect_conns c1 x b).1, Map.get?_insert] at hy
      split at hy
      · cases hy
        unfold collect
        split
        · exact h0 x b hb (by simp)
        · split <;> exact hQ.transmit _ (h0 x b hb (by simp))
      · exact h0 y b' hy hn

theorem But.mintOne (now : Nat) (c : Coord I A) (x : Nat) (h : But Q c.dirty c) :
    But Q (c.mintOne cfg env now x).dirty (c.mintOne cfg env now x) := by
  have hpr : ∀ (c1 : Coord I A) (s : Stream I A), x ∈ c1.dirty → But Q c1.dirty c1 →
      But Q (c1.promoteX x s).dirty (c1.promoteX x s) := by
    intro c1 s hx h1 y b hb hy
    have hyx : y ≠ x := fun e => hy (by rw [e]; exact hx)
    refine h1 y b ?_ hy
    simp only [promoteX, Map.get?_modify] at hb
    rw [if_neg (by first | exact hyx | exact fun e => hyx e.symm)] at hb
    exact hb
  have her : ∀ c1 c2 : Coord I A, But Q c1.dirty c1 → c2.conns = c1.conns.erase x → c2.dirty = c1.dirty →
      But Q c2.dirty c2 := by
    intro c1 c2 h1 he hd
    refine But.mono h1 (fun y b hb => ?_) (by rw [hd]; exact fun _ h => h)
    rw [he, Map.get?_erase] at hb
    split at hb
    · cases hb
    · exact hb
  unfold Coord.mintOne
  split
  · exact h
  · split
    · exact h
    · split
      · exact h
      · split
        · exact h
        · next m hm =>
          split
          · exact h
          · next mint hmi =>
            simp only []
            have h1 : But Q ({ c with metas := c.metas.insert x { m with mint := none }, dirty := idInsert x c.dirty } : Coord I A).dirty
                { c with metas := c.metas.insert x { m with mint := none }, dirty := idInsert x c.dirty } :=
              But.mono h (fun _ _ h => h) (fun y hy => mem_idInsert.2 (.inr hy))
            have hx1 : x ∈ ({ c with metas := c.metas.insert x { m with mint := none }, dirty := idInsert x c.dirty } : Coord I A).dirty :=
              mem_idInsert.2 (.inl rfl)
            generalize ({ c with metas := c.metas.insert x { m with mint := none }, dirty := idInsert x c.dirty } : Coord I A) = c1 at h1 hx1
            have h2 : ∀ op, x ∈ (c1.callEp cfg env (some x) op).1.dirty ∧
                But Q (c1.callEp cfg env (some x) op).1.dirty (c1.callEp cfg env (some x) op).1 := fun _ => ⟨hx1, h1⟩
            split
            · next sid =>
              have h3 := h2 (.dialSucceeded sid now)
              split
              · next c2 s heq => rw [heq] at h3; exact hpr _ s h3.1 h3.2
              · next c2 _ _ heq =>
                rw [heq] at h3
                obtain ⟨e1, e2⟩ := complete_conns (cfg := cfg) (env := env)
                  ({ (c2.purge x).purgeConnect x with
                      conns := ((c2.purge x).purgeConnect x).conns.erase x,
                      metas := ((c2.purge x).purgeConnect x).metas.erase x } : Coord I A) x
                  (((c2.purge x).purgeConnect x).metas.get? x) false
                exact her c2 _ h3.2 e1 e2
            · next peer =>
              have h3 := h2 (.acceptStream peer now)
              split
              · next c2 s heq => rw [heq] at h3; exact hpr _ s h3.1 h3.2
              · next c2 _ _ heq => rw [heq] at h3; exact her c2 _ h3.2 rfl rfl

theorem But.mintAll (now : Nat) {c : Coord I A} (h : But Q c.dirty c) :
    But Q (c.mintAll cfg env now).dirty (c.mintAll cfg env now) := by
  unfold Coord.mintAll
  have h0 : But Q ({ c with unminted := [] } : Coord I A).dirty ({ c with unminted := [] } : Coord I A) := h
  revert h0
  generalize ({ c with unminted := [] } : Coord I A) = c1
  generalize c.unminted = l
  intro h0
  induction l generalizing c1 with
  | nil => exact h0
  | cons x l ih => exact ih _ (But.mintOne now _ _ h0)

theorem dialOne_cases (now : Nat) (c : Coord I A) (d : Nat × A × Nat) :
    (c.dialOne cfg env X now d = (({ c with kinds := c.kinds.erase d.1 } : Coord I A).callEp cfg env none (.dialFailed d.1)).1 ∧
      now ≥ d.2.2) ∨
    (c.dialOne cfg env X now d =
      { c with
        kinds := c.kinds.erase d.1
        nextX := c.nextX + 1
        conns := c.conns.insert c.nextX
          (Bridge.new c.nextX (.newDialer X.label X.skipLabel) d.2.2 c.cmp c.ring cfg.maxStreamFrameSize)
        dirty := idInsert c.nextX c.dirty
        unminted := idInsert c.nextX c.unminted
        metas := c.metas.insert c.nextX
          { peer := d.2.1, mint := some (.outbound d.1), finEmitted := false, kind := c.kinds.get? d.1, outbound := true }
        connects := c.connects ++ [(c.nextX, d.2.1, d.1)] } ∧ now < d.2.2) := by
  unfold Coord.dialOne
  simp only []
  by_cases h : now ≥ d.2.2
  · rw [if_pos h]; exact .inl ⟨rfl, h⟩
  · rw [if_neg h]; exact .inr ⟨rfl, by omega⟩

theorem But.dialOne (now : Nat) (c : Coord I A) (d : Nat × A × Nat) (h : But Q c.dirty c) :
    But Q (c.dialOne cfg env X now d).dirty (c.dialOne cfg env X now d) := by
  rcases dialOne_cases (cfg := cfg) (env := env) (X := X) now c d with ⟨e, _⟩ | ⟨e, _⟩
  · rw [e]; exact h
  · rw [e]
    intro y b hb hy
    simp only [Map.get?_insert] at hb
    split at hb
    · next e => exact absurd (mem_idInsert.2 (.inl (by first | exact e | exact e.symm))) hy
    · exact h y b hb (fun hm => hy (mem_idInsert.2 (.inr hm)))

theorem But.serviceDials (now : Nat) {c : Coord I A} (h : But Q c.dirty c) :
    But Q (c.serviceDials cfg env X now).dirty (c.serviceDials cfg env X now) := by
  unfold Coord.serviceDials
  split
  · exact h
  · simp only []
    have h0 : But Q ({ (c.callEp cfg env none .sieveDials).1 with dials := [] } : Coord I A).dirty
      ({ (c.callEp cfg env none .sieveDials).1 with dials := [] } : Coord I A) := h
    revert h0
    generalize ({ (c.callEp cfg env none .sieveDials).1 with dials := [] } : Coord I A) = c1
    generalize c.dials ++ dialsOf c.ep.sieveDials.2 = l
    intro h0
    induction l generalizing c1 with
    | nil => exact h0
    | cons d l ih => exact ih _ (But.dialOne now _ _ h0)

theorem But.pumpFold' {now : Nat} (hQ : ∀ b : Bridge I A, b.isTerminal = false → b.Calm → b.Swept now → Q b) (l : List Nat) :
    ∀ c : Coord I A, But Q l c → But Q [] (l.foldl (Coord.pumpOne cfg env T now) c) ∧
      (l.foldl (Coord.pumpOne cfg env T now) c).dirty = c.dirty := by
  induction l with
  | nil => intro c h; exact ⟨h, rfl⟩
  | cons x l ih =>
    intro c h
    have h1 : But Q l (c.pumpOne cfg env T now x) := But.pumpOne' hQ h
    exact ⟨(ih _ h1).1, (ih _ h1).2.trans (pumpOne_conns now c x).1⟩

theorem mem_idInserts {l : List Nat} {y : Nat} : ∀ {d : List Nat}, y ∈ l.foldl (fun d x => idInsert x d) d ↔ y ∈ l ∨ y ∈ d := by
  induction l with
  | nil => simp
  | cons x l ih =>
    intro d
    simp only [List.foldl_cons, ih, mem_idInsert, List.mem_cons]
    constructor
    · rintro (h | h | h) <;> simp [h]
    · rintro ((h | h) | h) <;> simp [h]

/-- Minting leaves the other exchanges alone. -/
theorem mintOne_conns (now : Nat) (c : Coord I A) (x : Nat) :
    (c.mintOne cfg env now x).conns = c.conns ∨ (c.mintOne cfg env now x).conns = c.conns.erase x ∨
    ∃ s : Stream I A, (c.mintOne cfg env now x).conns = c.conns.modify x (fun b => b.promote s) := by
  unfold Coord.mintOne
  split
  · exact .inl rfl
  · split
    · exact .inl rfl
    · split
      · exact .inl rfl
      · split
        · exact .inl rfl
        · next m hm =>
          split
          · exact .inl rfl
          · next mint hmi =>
            simp only []
            split
            · next sid =>
              simp only [callEp]
              split
              · next c2 s heq => obtain ⟨h1, _⟩ := Prod.mk.inj heq; subst h1; exact .inr (.inr ⟨s, rfl⟩)
              · next c2 _ _ heq =>
                cases heq
                exact .inr (.inl (complete_conns _ _ _ _).1)
            · next peer =>
              simp only [callEp]
              split
              · next c2 s heq => obtain ⟨h1, _⟩ := Prod.mk.inj heq; subst h1; exact .inr (.inr ⟨s, rfl⟩)
              · next c2 _ _ heq => cases heq; exact .inr (.inl rfl)

/-- What holds of promoted bridges survives minting. -/
theorem But.mintOne' {l : List Nat} (hQ : ∀ b s, Q (Bridge.promote b s)) (now : Nat) (c : Coord I A) (x : Nat)
    (h : But Q l c) : But Q l (c.mintOne cfg env now x) := by
  intro y b hb hy
  rcases mintOne_conns (cfg := cfg) (env := env) now c x with e | e | ⟨s, e⟩ <;> rw [e] at hb
  · exact h y b hb hy
  · rw [Map.get?_erase] at hb
    split at hb
    · cases hb
    · exact h y b hb hy
  · rw [Map.get?_modify] at hb
    split at hb
    · rw [Option.map_eq_some_iff] at hb
      obtain ⟨b0, _, rfl⟩ := hb
      exact hQ _ _
    · exact h y b hb hy

theorem But.dialOne' {l : List Nat} {now : Nat} (hQ : ∀ b : Bridge I A, now < b.deadline → Q b) (c : Coord I A)
    (d : Nat × A × Nat) (h : But Q l c) : But Q l (c.dialOne cfg env X now d) := by
  rcases dialOne_cases (cfg := cfg) (env := env) (X := X) now c d with ⟨e, _⟩ | ⟨e, hd⟩
  · rw [e]; exact h
  · rw [e]
    intro y b hb hy
    simp only [Map.get?_insert] at hb
    split at hb
    · cases hb; exact hQ _ hd
    · exact h y b hb hy

theorem But.serviceDials' {l : List Nat} {now : Nat} (hQ : ∀ b : Bridge I A, now < b.deadline → Q b) {c : Coord I A}
    (h : But Q l c) : But Q l (c.serviceDials cfg env X now) := by
  unfold Coord.serviceDials
  split
  · exact h
  · simp only []
    have h0 : But Q l ({ (c.callEp cfg env none .sieveDials).1 with dials := [] } : Coord I A) := h
    revert h0
    generalize ({ (c.callEp cfg env none .sieveDials).1 with dials := [] } : Coord I A) = c1
    generalize c.dials ++ dialsOf c.ep.sieveDials.2 = l'
    intro h0
    induction l' generalizing c1 with
    | nil => exact h0
    | cons d l' ih => exact ih _ (But.dialOne' hQ _ _ h0)

theorem But.mintAll' {l : List Nat} (hQ : ∀ b s, Q (Bridge.promote b s)) (now : Nat) {c : Coord I A}
    (h : But Q l c) : But Q l (c.mintAll cfg env now) := by
  unfold Coord.mintAll
  have h0 : But Q l ({ c with unminted := [] } : Coord I A) := h
  revert h0
  generalize ({ c with unminted := [] } : Coord I A) = c1
  generalize c.unminted = l'
  intro h0
  induction l' generalizing c1 with
  | nil => exact h0
  | cons x l' ih => exact ih _ (But.mintOne' hQ now _ _ h0)

end Coord
end Verif
