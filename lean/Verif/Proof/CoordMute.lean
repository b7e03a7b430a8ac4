import Verif.Proof.CoordMint
/-
Between two calls no bridge holds bytes that were not collected. During a call only the exchanges marked for pumping and
those already pumped may.
-/
namespace Verif
namespace Coord
variable {I A : Type} [DecidableEq I] [DecidableEq A] {cfg : Cfg I A} {env : Env I A} {X : XCfg} {T : TEnv}

/-- Nothing waits to be collected. -/
def Mute (b : Bridge I A) : Prop := b.records.outbound = []

/-- Bytes wait only where they will be collected. -/
def Hush (c : Coord I A) : Prop := But Mute (c.dirty ++ c.pumped) c

theorem Hush.of_all {c : Coord I A} (h : But Mute [] c) : Hush c := But.mono h (fun _ _ h => h) (by simp)

theorem complete_pumped (c : Coord I A) (x : Nat) (m : Option (XMeta A)) (ok : Bool) :
    (c.complete cfg env x m ok).pumped = c.pumped := by
  unfold complete
  split
  · rfl
  · split <;> rfl

theorem collect_pumped (c : Coord I A) (x : Nat) (b : Bridge I A) : (c.collect x b).1.pumped = c.pumped := by
  unfold collect
  split
  · rfl
  · split <;> rfl

theorem collect_kept (c : Coord I A) (x : Nat) (b : Bridge I A) : (c.collect x b).1.metas = c.metas := by
  unfold collect
  split
  · rfl
  · split <;> rfl

theorem reap_pumped (c : Coord I A) (x : Nat) (b : Bridge I A) : (c.reap cfg env x b).pumped = c.pumped := by
  have h1 : (if b.isFailed = true then c.purge x else (c.collect x b).1).pumped = c.pumped := by
    split
    · rfl
    · exact collect_pumped c x b
  unfold reap
  simp only []
  generalize (if b.isFailed = true then c.purge x else (c.collect x b).1) = c1 at h1
  have h2 := complete_pumped (cfg := cfg) (env := env)
    ({ c1 with conns := c1.conns.erase x, metas := c1.metas.erase x } : Coord I A) x (c1.metas.get? x) (!b.isFailed)
  split
  · exact h2.trans h1
  · exact h2.trans h1

theorem maybeShutdown_pumped (c : Coord I A) (x : Nat) (b : Bridge I A) : (c.maybeShutdown x b).pumped = c.pumped := by
  unfold maybeShutdown
  split
  · rfl
  · split
    · rfl
    · split <;> rfl

/-- A pumped exchange is noted, unless it is gone. -/
theorem pumpOne_pumped (now : Nat) (c : Coord I A) (x : Nat) :
    (∀ y ∈ c.pumped, y ∈ (c.pumpOne cfg env T now x).pumped) ∧
    (∀ b, (c.pumpOne cfg env T now x).conns.get? x = some b → x ∈ (c.pumpOne cfg env T now x).pumped) := by
  have gone : ∀ c1 : Coord I A, c1.pumped = c.pumped → ∀ b1 : Bridge I A, 
      (∀ y ∈ c.pumped, y ∈ (c1.drainReap cfg env T x b1 now).pumped) ∧
      (∀ b, (c1.drainReap cfg env T x b1 now).conns.get? x = some b → x ∈ (c1.drainReap cfg env T x b1 now).pumped) := by
    intro c1 h1 b1
    unfold drainReap
    simp only []
    rw [reap_pumped]
    refine ⟨fun y hy => by show y ∈ c1.pumped; rw [h1]; exact hy, fun b hb => ?_⟩
    rw [(reap_conns_eq _ _ _).1, Map.get?_erase, if_pos rfl] at hb
    cases hb
  unfold pumpOne
  cases hx : c.conns.get? x with
  | none => exact ⟨fun _ h => h, fun b hb => by simp only [] at hb; rw [hx] at hb; cases hb⟩
  | some b =>
    simp only []
    generalize (b.replay env.CI env.CA T now).pumpOut T now = b1
    split
    · exact gone c rfl b1
    · generalize hc1 : ({ c with panicked := c.panicked || (b1.phase == Link.recvClosed && b1.stream.isNone) } : Coord I A) = c1
      have e1 : c1.pumped = c.pumped := by subst hc1; rfl
      generalize b1.drainPayloadOnly cfg env T c.cmp c.ep now = r
      split
      · exact gone (c1.absorb x r.1 r.2.2) e1 r.2.1
      · simp only [maybeShutdown_pumped]
        rw [show (c1.absorb x r.1 r.2.2).pumped = c.pumped from e1]
        refine ⟨fun y hy => mem_idInsert.2 (.inr hy), fun _ _ => mem_idInsert.2 (.inl rfl)⟩

theorem Hush.pumpOne {l : List Nat} (now : Nat) {c : Coord I A} (x : Nat) (h : But Mute (x :: l ++ c.pumped) c) :
    But Mute (l ++ (c.pumpOne cfg env T now x).pumped) (c.pumpOne cfg env T now x) := by
  intro y b hb hy
  obtain ⟨h1, h2⟩ := pumpOne_pumped (cfg := cfg) (env := env) (T := T) now c x
  rw [List.mem_append, not_or] at hy
  by_cases e : y = x
  · rw [e] at hb hy; exact absurd (h2 b hb) hy.2
  · have hn : y ∉ x :: l ++ c.pumped := by
      simp only [List.cons_append, List.mem_cons, List.mem_append, not_or]
      exact ⟨e, hy.1, fun hp => hy.2 (h1 y hp)⟩
    refine h y b ?_ hn
    obtain ⟨_, h1 | ⟨_, h1⟩ | ⟨_, _, _, _, _, h1⟩⟩ := pumpOne_conns (cfg := cfg) (env := env) (T := T) now c x <;> rw [h1] at hb
    · rw [Map.get?_erase, if_neg (by first | exact e | exact fun h => e h.symm)] at hb; exact hb
    · exact hb
    · rw [Map.get?_insert, if_neg (by first | exact e | exact fun h => e h.symm)] at hb; exact hb

theorem Hush.pump (now : Nat) {c : Coord I A} (h : Hush c) :
    Hush (c.pump cfg env T now) ∧ (c.pump cfg env T now).dirty = [] := by
  have key : ∀ (l : List Nat) (c1 : Coord I A), c1.dirty = [] → But Mute (l ++ c1.pumped) c1 →
      Hush (l.foldl (Coord.pumpOne cfg env T now) c1) ∧ (l.foldl (Coord.pumpOne cfg env T now) c1).dirty = [] := by
    intro l
    induction l with
    | nil => intro c1 h0 h1; exact ⟨by unfold Hush; simp only [List.foldl_nil]; rw [h0]; exact h1, h0⟩
    | cons x l ih => intro c1 h0 h1; exact ih _ ((pumpOne_conns now c1 x).1.trans h0) (Hush.pumpOne now x h1)
  exact key c.dirty { c with dirty := [] } rfl h

theorem complete_dirty_pumped {c c1 : Coord I A} (h : c1.dirty = c.dirty) (hp : c1.pumped = c.pumped) (x : Nat) (m : Option (XMeta A)) (ok : Bool) :
    (c1.complete cfg env x m ok).dirty = c.dirty ∧ (c1.complete cfg env x m ok).pumped = c.pumped :=
  ⟨(complete_conns c1 x m ok).2.trans h, (complete_pumped c1 x m ok).trans hp⟩

theorem mintOne_marks (now : Nat) (c : Coord I A) (x : Nat) :
    (∀ y ∈ c.dirty, y ∈ (c.mintOne cfg env now x).dirty) ∧ (c.mintOne cfg env now x).pumped = c.pumped := by
  have hm : ∀ y ∈ c.dirty, y ∈ idInsert x c.dirty := fun y hy => mem_idInsert.2 (.inr hy)
  unfold mintOne
  split
  · exact ⟨fun _ h => h, rfl⟩
  · split
    · exact ⟨fun _ h => h, rfl⟩
    · split
      · exact ⟨fun _ h => h, rfl⟩
      · split
        · exact ⟨fun _ h => h, rfl⟩
        · split
          · exact ⟨fun _ h => h, rfl⟩
          · simp only [callEp]
            split
            · split
              · next c2 s heq => obtain ⟨h1, _⟩ := Prod.mk.inj heq; subst h1; exact ⟨hm, rfl⟩
              · next c2 _ _ heq =>
                obtain ⟨h1, _⟩ := Prod.mk.inj heq
                have hd : c2.dirty = idInsert x c.dirty := by rw [← h1]
                have hp : c2.pumped = c.pumped := by rw [← h1]
                unfold retireDial
                simp only [teardown]
                exact ⟨fun y hy => by rw [(complete_conns _ _ _ _).2]; show y ∈ c2.dirty; rw [hd]; exact hm y hy,
                  (complete_pumped _ _ _ _).trans hp⟩
            · split
              · next c2 s heq => obtain ⟨h1, _⟩ := Prod.mk.inj heq; subst h1; exact ⟨hm, rfl⟩
              · next c2 _ _ heq =>
                obtain ⟨h1, _⟩ := Prod.mk.inj heq
                have hd : c2.dirty = idInsert x c.dirty := by rw [← h1]
                have hp : c2.pumped = c.pumped := by rw [← h1]
                exact ⟨fun y hy => by show y ∈ c2.dirty; rw [hd]; exact hm y hy, hp⟩

theorem Hush.mintOne (now : Nat) {c : Coord I A} (x : Nat) (h : Hush c) : Hush (c.mintOne cfg env now x) := by
  obtain ⟨h1, h2⟩ := mintOne_marks (cfg := cfg) (env := env) now c x
  intro y b hb hy
  have hn : y ∉ c.dirty ++ c.pumped := by
    simp only [List.mem_append, not_or] at hy ⊢
    exact ⟨fun hc => hy.1 (h1 y hc), by rw [← h2]; exact hy.2⟩
  rcases mintOne_conns (cfg := cfg) (env := env) now c x with e | e | ⟨s, e⟩ <;> rw [e] at hb
  · exact h y b hb hn
  · rw [Map.get?_erase] at hb
    split at hb
    · cases hb
    · exact h y b hb hn
  · rw [Map.get?_modify] at hb
    split at hb
    · rw [Option.map_eq_some_iff] at hb
      obtain ⟨b0, h0, rfl⟩ := hb
      exact h y b0 h0 hn
    · exact h y b hb hn

theorem Hush.mintAll (now : Nat) {c : Coord I A} (h : Hush c) : Hush (c.mintAll cfg env now) := by
  unfold Coord.mintAll
  have h0 : Hush ({ c with unminted := [] } : Coord I A) := h
  revert h0
  generalize ({ c with unminted := [] } : Coord I A) = c1
  generalize c.unminted = l
  intro h0
  induction l generalizing c1 with
  | nil => exact h0
  | cons x l ih => exact ih _ (h0.mintOne now x)

theorem Hush.dialOne (now : Nat) {c : Coord I A} (d : Nat × A × Nat) (h : Hush c) : Hush (c.dialOne cfg env X now d) := by
  rcases dialOne_cases (cfg := cfg) (env := env) (X := X) now c d with ⟨e, _⟩ | ⟨e, _⟩
  · rw [e]; exact h
  · rw [e]
    intro y b hb hy
    simp only [List.mem_append, not_or] at hy
    simp only [Map.get?_insert] at hb
    split at hb
    · next e => exact absurd (mem_idInsert.2 (.inl (by first | exact e | exact e.symm))) hy.1
    · exact h y b hb (by simp only [List.mem_append, not_or]; exact ⟨fun hm => hy.1 (mem_idInsert.2 (.inr hm)), hy.2⟩)

theorem Hush.serviceDials (now : Nat) {c : Coord I A} (h : Hush c) : Hush (c.serviceDials cfg env X now) := by
  unfold Coord.serviceDials
  split
  · exact h
  · simp only []
    have h0 : Hush ({ (c.callEp cfg env none .sieveDials).1 with dials := [] } : Coord I A) := h
    revert h0
    generalize ({ (c.callEp cfg env none .sieveDials).1 with dials := [] } : Coord I A) = c1
    generalize c.dials ++ dialsOf c.ep.sieveDials.2 = l
    intro h0
    induction l generalizing c1 with
    | nil => exact h0
    | cons d l ih => exact ih _ (h0.dialOne now d)

/-- Collecting empties every pumped bridge. -/
theorem Hush.collectTransmits {c : Coord I A} (h : Hush c) (hd : c.dirty = [])
    (hk : ∀ x b, c.conns.get? x = some b → c.metas.get? x ≠ none) : But Mute [] c.collectTransmits := by
  have key : ∀ (l : List Nat) (c1 : Coord I A), But Mute l c1 → (∀ x b, c1.conns.get? x = some b → c1.metas.get? x ≠ none) →
      But Mute [] (l.foldl (fun c x =>
        match c.conns.get? x with
        | none => c
        | some b => { (c.collect x b).1 with conns := (c.collect x b).1.conns.insert x (c.collect x b).2 }) c1) := by
    intro l
    induction l with
    | nil => intro c1 h1 _; exact h1
    | cons x l ih =>
      intro c1 h1 h2
      simp only [List.foldl_cons]
      split
      · next hx =>
        refine ih _ ?_ h2
        intro y b hb hy
        refine h1 y b hb ?_
        simp only [List.mem_cons, not_or]
        exact ⟨fun e => absurd hb (by rw [e, hx]; simp), hy⟩
      · next b hx =>
        have hm : (c1.collect x b).1.metas = c1.metas := collect_kept c1 x b
        have hc : (c1.collect x b).1.conns = c1.conns := (collect_conns c1 x b).1
        have hb0 : (c1.collect x b).2.records.outbound = [] := by
          unfold Coord.collect
          split
          · next hn => exact absurd hn (h2 x b hx)
          · split <;> rfl
        refine ih _ ?_ ?_
        · intro y b' hb hy
          simp only [hc, Map.get?_insert] at hb
          split at hb
          · cases hb; exact hb0
          · next hne =>
            refine h1 y b' hb ?_
            simp only [List.mem_cons, not_or]
            exact ⟨by first | exact hne | exact fun e => hne e.symm, hy⟩
        · intro y b' hb
          simp only [hm]
          simp only [hc, Map.get?_insert] at hb
          split at hb
          · next e => exact h2 _ b (e ▸ hx)
          · exact h2 y b' hb
  unfold Coord.collectTransmits
  refine key c.pumped { c with pumped := [] } ?_ hk
  have := h
  unfold Hush at this
  rw [hd] at this
  exact this

theorem Shape.keyed {e0 : Ep I A} {c : Coord I A} (h : Shape cfg env e0 c) :
    ∀ x b, c.conns.get? x = some b → c.metas.get? x ≠ none := by
  intro x b hb hn
  rw [(h.keys x).2 hn] at hb
  cases hb

/-- Collecting takes nothing away but bytes. -/
theorem collectTransmits_keeps (c : Coord I A) :
    c.collectTransmits.metas = c.metas ∧ ∀ x, c.conns.get? x ≠ none → c.collectTransmits.conns.get? x ≠ none := by
  have key : ∀ (l : List Nat) (c1 : Coord I A), c1.metas = c.metas → (∀ x, c.conns.get? x ≠ none → c1.conns.get? x ≠ none) →
      (l.foldl (fun c x =>
        match c.conns.get? x with
        | none => c
        | some b => { (c.collect x b).1 with conns := (c.collect x b).1.conns.insert x (c.collect x b).2 }) c1).metas = c.metas ∧
      ∀ x, c.conns.get? x ≠ none → (l.foldl (fun c x =>
        match c.conns.get? x with
        | none => c
        | some b => { (c.collect x b).1 with conns := (c.collect x b).1.conns.insert x (c.collect x b).2 }) c1).conns.get? x ≠ none := by
    intro l
    induction l with
    | nil => intro c1 h1 h2; exact ⟨h1, h2⟩
    | cons x l ih =>
      intro c1 h1 h2
      simp only [List.foldl_cons]
      split
      · exact ih _ h1 h2
      · next b hb =>
        refine ih _ ((collect_kept c1 x b).trans h1) (fun y hy => ?_)
        simp only [(collect_conns c1 x b).1, Map.get?_insert]
        split
        · simp
        · exact h2 y hy
  exact key c.pumped { c with pumped := [] } rfl (fun _ h => h)

/-- The bookkeeping that remains once everything was collected. -/
def Keyed (c : Coord I A) : Prop := ∀ x b, c.conns.get? x = some b → c.metas.get? x ≠ none

theorem Hush.collected {c : Coord I A} (h : Hush c) (hd : c.dirty = []) (hk : Keyed c.collectTransmits) :
    But Mute [] c.collectTransmits := by
  refine h.collectTransmits hd (fun x b hb => ?_)
  obtain ⟨h1, h2⟩ := collectTransmits_keeps c
  rw [← h1]
  cases hx : c.collectTransmits.conns.get? x with
  | none => exact absurd hx (h2 x (by rw [hb]; simp))
  | some b' => exact hk x b' hx

theorem Hush.flush (now : Nat) {c : Coord I A} (h : Hush c) (hk : Keyed (c.flush cfg env T now)) :
    But Mute [] (c.flush cfg env T now) := by
  have h3 := ((h.pump (cfg := cfg) (env := env) (T := T) now).1.mintAll (cfg := cfg) (env := env) now).pump
    (cfg := cfg) (env := env) (T := T) now
  exact h3.1.collected h3.2 hk

theorem Hush.runTick (now : Nat) {c : Coord I A} (h : Hush c) (hk : Keyed (c.runTick cfg env X T now)) :
    But Mute [] (c.runTick cfg env X T now) := by
  have h1 : Hush ((c.pump cfg env T now).callEp cfg env none (.timeout now)).1 :=
    (h.pump (cfg := cfg) (env := env) (T := T) now).1
  have h3 := (((h1.mintAll (cfg := cfg) (env := env) now).serviceDials (cfg := cfg) (env := env) (X := X) now).mintAll
    (cfg := cfg) (env := env) now).pump (cfg := cfg) (env := env) (T := T) now
  exact h3.1.collected h3.2 hk

theorem Hush.launch (sid : Nat) (kind : ExKind) (now : Nat) {c : Coord I A} (h : Hush c)
    (hk : Keyed (c.launch cfg env X T sid kind now)) : But Mute [] (c.launch cfg env X T sid kind now) := by
  have h0 : Hush ({ c with kinds := c.kinds.insert sid kind } : Coord I A) := h
  exact (h0.serviceDials (cfg := cfg) (env := env) (X := X) now).flush now hk

theorem Hush.modify {c : Coord I A} (h : But Mute [] c) (x : Nat) (f : Bridge I A → Bridge I A) (t : Option Nat) :
    Hush ({ c with lastNow := t, conns := c.conns.modify x f, dirty := idInsert x c.dirty } : Coord I A) := by
  intro y b hb hy
  simp only [List.mem_append, not_or] at hy
  have hyx : y ≠ x := fun e => hy.1 (mem_idInsert.2 (.inl e))
  refine h y b ?_ (by simp)
  simp only [Map.get?_modify] at hb
  rw [if_neg (by first | exact hyx | exact fun e => hyx e.symm)] at hb
  exact hb

omit [DecidableEq I] [DecidableEq A] in
theorem Mute.fail {b : Bridge I A} (h : Mute b) (r : LinkFail) : Mute (b.fail r) := by
  unfold Bridge.fail
  split
  · exact h
  · rfl

theorem step_mute (c : Coord I A) (op : XOp I A) (h : But Mute [] c) (hk : Keyed (c.step cfg env X T op).1) :
    But Mute [] (c.step cfg env X T op).1 := by
  cases op with
  | data x bytes eof now => exact Hush.runTick now (Hush.modify h x _ _) hk
  | dialFailed x now => exact Hush.runTick now (Hush.modify h x _ _) hk
  | transportError x now => exact Hush.runTick now (Hush.modify h x _ _) hk
  | accept src now =>
    simp only [step, accept]
    split
    · exact h
    · split
      · exact h
      · intro y b hb hy
        simp only [Map.get?_insert] at hb
        split at hb
        · cases hb; rfl
        · exact h y b hb hy
  | startPushPull peer kind now => exact Hush.launch _ _ _ (Hush.of_all h) hk
  | startReliablePing pid peer seq d now => exact Hush.launch _ _ _ (Hush.of_all h) hk
  | startUserMessage peer payload now =>
    revert hk
    simp only [step, startUserMessage]
    split
    · intro _; exact h
    · intro hk; exact Hush.launch _ _ _ (Hush.of_all h) hk
  | timeout now =>
    exact Hush.runTick now (Hush.of_all (But.mono (l := []) (c := c) h (fun _ _ h => h) (by simp))) hk
  | gossip src datagram now =>
    simp only [step, gossip]
    split
    · exact h
    · split <;> exact h
  | leave now farewell =>
    simp only [step, leave]
    have h0 : But Mute [] ({ c with lastNow := some now, dials := [], kinds := [], connects := [], ingress := [], tick := c.tick + 1 } : Coord I A) := h
    have : ∀ (l : List Nat) (c1 : Coord I A), But Mute [] c1 →
        But Mute [] (l.foldl (fun c x => if c.hasBytes x = true then c.cancel x else c) c1) := by
      intro l
      induction l with
      | nil => intro c1 h; exact h
      | cons x l ih =>
        intro c1 h
        simp only [List.foldl_cons]
        refine ih _ ?_
        split
        · refine But.mono h (fun y b hb => ?_) (by simp)
          simp only [cancel, teardown, purge, Map.get?_erase] at hb
          split at hb
          · cases hb
          · exact hb
        · exact h
    exact this _ _ h0
  | setEncryption ring =>
    simp only [step, setEncryption]
    split
    · exact h
    · have hA := abortFailed_fold (T.order c.tick ((c.conns.filter (fun e => !e.2.isFailed)).map Prod.fst))
        ({ c with conns := c.conns.map (fun (e : Nat × Bridge I A) => (e.1, e.2.setEncryption ring)), tick := c.tick + 1 } : Coord I A)
      obtain ⟨_, _, _, a4, _⟩ := hA
      intro y b hb hy
      have hb := (congrArg (fun m => Map.get? m y) a4).symm.trans hb
      have hb := (get?_map (fun b => Bridge.setEncryption b ring) c.conns y).symm.trans hb
      rw [Option.map_eq_some_iff] at hb
      obtain ⟨b0, h0, rfl⟩ := hb
      exact Mute.fail (b := { b0 with ring := ring }) (h y b0 h0 hy) _
  | setCompression cmp =>
    simp only [step, setCompression]
    intro y b hb hy
    have hb := (get?_map (fun b => Bridge.setCompression b cmp) c.conns y).symm.trans hb
    rw [Option.map_eq_some_iff] at hb
    obtain ⟨b0, h0, rfl⟩ := hb
    exact h y b0 h0 hy
  | pollTransport => simp only [step, pollTransport]; split <;> exact h
  | pollAction =>
    simp only [step, pollAction]
    split
    · exact h
    · split <;> exact h
  | pollIngress => simp only [step, pollIngress]; split <;> exact h
  | pollEvent =>
    simp only [step, pollEvent]
    have : ∀ (n : Nat) (c1 : Coord I A), But Mute [] c1 → But Mute [] (pollEventLoop cfg env n c1).1 := by
      intro n
      induction n with
      | zero => intro c1 h; exact h
      | succ n ih =>
        intro c1 h
        simp only [pollEventLoop]
        split
        · exact h
        · exact ih _ h
        · exact h
    exact this _ _ h
  | requeueDial sid peer d now => simp only [step, requeueDial]; split <;> exact h
  | direct d => exact h

/-- Between two calls, no bridge holds bytes that were not collected. -/
theorem mute_run (e0 : Ep I A) (cmp : CmpOptions) (ops : List (XOp I A)) :
    But Mute [] ((Coord.new e0 cmp).run cfg env X T ops) := by
  induction ops using snoc_induction with
  | h0 => intro x b hb; cases hb
  | h1 ops op ih =>
    have hs := shape_run (cfg := cfg) (env := env) (X := X) (T := T) e0 cmp (ops ++ [op])
    rw [xrun_snoc] at hs ⊢
    exact step_mute _ _ ih hs.keyed

end Coord
end Verif
