import Verif.Proof.CoordDue
/-
Between two calls every exchange is live or waiting to be reaped, and the coordinator knows the time.
-/
namespace Verif
open Spec
namespace Coord
variable {I A : Type} [DecidableEq I] [DecidableEq A] {cfg : Cfg I A} {env : Env I A} {X : XCfg} {T : TEnv}

theorem complete_last (c : Coord I A) (x : Nat) (m : Option (XMeta A)) (ok : Bool) :
    (c.complete cfg env x m ok).lastNow = c.lastNow := by
  unfold complete; split
  · rfl
  · split <;> rfl

omit [DecidableEq I] [DecidableEq A] in
theorem collect_last (c : Coord I A) (x : Nat) (b : Bridge I A) : (c.collect x b).1.lastNow = c.lastNow := by
  unfold collect; split
  · rfl
  · split <;> rfl

theorem reap_last (c : Coord I A) (x : Nat) (b : Bridge I A) : (c.reap cfg env x b).lastNow = c.lastNow := by
  have h : ∀ c1 : Coord I A, (match c1.metas.get? x |>.bind XMeta.mint with
      | some (.outbound sid) => ((({ c1 with conns := c1.conns.erase x, metas := c1.metas.erase x } : Coord I A).complete cfg env x
          (c1.metas.get? x) (!b.isFailed)).callEp cfg env (some x) (.dialFailed sid)).1
      | _ => ({ c1 with conns := c1.conns.erase x, metas := c1.metas.erase x } : Coord I A).complete cfg env x
          (c1.metas.get? x) (!b.isFailed)).lastNow = c1.lastNow := by
    intro c1
    split
    · exact complete_last _ _ _ _
    · exact complete_last _ _ _ _
  unfold reap
  refine (h _).trans ?_
  split
  · rfl
  · exact collect_last _ _ _

omit [DecidableEq I] [DecidableEq A] in
theorem maybeShutdown_last (c : Coord I A) (x : Nat) (b : Bridge I A) : (c.maybeShutdown x b).lastNow = c.lastNow := by
  unfold maybeShutdown; split
  · rfl
  · split
    · rfl
    · split <;> rfl

theorem pumpOne_last (now : Nat) (c : Coord I A) (x : Nat) : (c.pumpOne cfg env T now x).lastNow = c.lastNow := by
  unfold pumpOne
  split
  · rfl
  · simp only []
    split
    · exact reap_last _ _ _
    · split
      · exact reap_last _ _ _
      · exact maybeShutdown_last _ _ _

theorem pump_last (now : Nat) (c : Coord I A) : (c.pump cfg env T now).lastNow = c.lastNow := by
  unfold pump
  have : ∀ (l : List Nat) (c : Coord I A), (l.foldl (pumpOne cfg env T now) c).lastNow = c.lastNow := by
    intro l
    induction l with
    | nil => intro c; rfl
    | cons x l ih => intro c; exact (ih _).trans (pumpOne_last now c x)
  exact this _ _

theorem mintOne_last (now : Nat) (c : Coord I A) (x : Nat) : (c.mintOne cfg env now x).lastNow = c.lastNow := by
  unfold mintOne
  split
  · rfl
  · split
    · rfl
    · split
      · rfl
      · split
        · rfl
        · split
          · rfl
          · simp only []
            split
            · split
              · next heq => obtain ⟨h1, h2⟩ := Prod.mk.inj heq; subst h1; rfl
              · next heq => obtain ⟨h1, h2⟩ := Prod.mk.inj heq; subst h1; exact complete_last _ _ _ _
            · split
              · next heq => obtain ⟨h1, h2⟩ := Prod.mk.inj heq; subst h1; rfl
              · next heq => obtain ⟨h1, h2⟩ := Prod.mk.inj heq; subst h1; rfl

theorem mintAll_last (now : Nat) (c : Coord I A) : (c.mintAll cfg env now).lastNow = c.lastNow := by
  unfold mintAll
  have : ∀ (l : List Nat) (c : Coord I A), (l.foldl (mintOne cfg env now) c).lastNow = c.lastNow := by
    intro l
    induction l with
    | nil => intro c; rfl
    | cons x l ih => intro c; exact (ih _).trans (mintOne_last now c x)
  exact this _ _

theorem serviceDials_last (now : Nat) (c : Coord I A) : (c.serviceDials cfg env X now).lastNow = c.lastNow := by
  unfold serviceDials
  split
  · rfl
  · have : ∀ (l : List (Nat × A × Nat)) (c : Coord I A), (l.foldl (dialOne cfg env X now) c).lastNow = c.lastNow := by
      intro l
      induction l with
      | nil => intro c; rfl
      | cons x l ih =>
        intro c
        refine (ih _).trans ?_
        unfold dialOne
        simp only []
        split <;> rfl
    exact this _ _

omit [DecidableEq I] [DecidableEq A] in
theorem collectTransmits_last (c : Coord I A) : c.collectTransmits.lastNow = c.lastNow := by
  unfold collectTransmits
  have : ∀ (l : List Nat) (c : Coord I A), (l.foldl (fun c x =>
    match c.conns.get? x with
    | none => c
    | some b => { (c.collect x b).1 with conns := (c.collect x b).1.conns.insert x (c.collect x b).2 }) c).lastNow = c.lastNow := by
    intro l
    induction l with
    | nil => intro c; rfl
    | cons x l ih =>
      intro c
      refine (ih _).trans ?_
      simp only []
      split
      · rfl
      · exact collect_last _ _ _
  exact this _ _

theorem runTick_last (now : Nat) (c : Coord I A) : (c.runTick cfg env X T now).lastNow = c.lastNow := by
  unfold runTick
  refine (collectTransmits_last _).trans ?_
  rw [pump_last, mintAll_last, serviceDials_last, mintAll_last]
  exact pump_last _ _

theorem launch_last (sid : Nat) (kind : ExKind) (now : Nat) (c : Coord I A) :
    (c.launch cfg env X T sid kind now).lastNow = c.lastNow := by
  unfold launch flush
  rw [collectTransmits_last, pump_last, mintAll_last, pump_last, serviceDials_last]

/-- Nothing terminal is left but what waits to be reaped, and the time of some call is known if anything is held. -/
structure Tidy (c : Coord I A) : Prop where
  live : ∀ x b, c.conns.get? x = some b → b.isTerminal = true → x ∈ c.dirty ∧ c.reapPending = true
  time : ∀ x b, c.conns.get? x = some b → c.lastNow ≠ none

/-- A bridge that is not terminal. -/
def Live (b : Bridge I A) : Prop := b.isTerminal = false

omit [DecidableEq I] [DecidableEq A] in
theorem live_rests (now : Nat) : Rests now (Live (I := I) (A := A)) := ⟨fun _ h _ _ => h, fun _ h => h⟩

omit [DecidableEq I] [DecidableEq A] in
theorem Tidy.but {c : Coord I A} (h : Tidy c) : But Live c.dirty c := by
  intro x b hb hx
  cases ht : b.isTerminal with
  | false => exact ht
  | true => exact absurd (h.live x b hb ht).1 hx

omit [DecidableEq I] [DecidableEq A] in
theorem Tidy.of {c : Coord I A} (h : But Live [] c) (ht : c.lastNow ≠ none) : Tidy c :=
  ⟨fun x b hb hn => (by rw [h x b hb (by simp)] at hn; cases hn), fun _ _ _ => ht⟩

theorem Tidy.step {c : Coord I A} (h : Tidy c) (op : XOp I A) : Tidy (c.step cfg env X T op).1 := by
  have tick : ∀ (now : Nat) (c1 : Coord I A), But Live c1.dirty c1 → c1.lastNow = some now → Tidy (c1.runTick cfg env X T now) :=
    fun now c1 h1 h2 => .of (But.runTick (live_rests now) h1) (by rw [runTick_last, h2]; simp)
  have tock : ∀ (sid : Nat) (kind : ExKind) (now : Nat) (c1 : Coord I A), But Live c1.dirty c1 → c1.lastNow = some now →
      Tidy (c1.launch cfg env X T sid kind now) :=
    fun sid kind now c1 h1 h2 => .of (But.launch (live_rests now) sid kind h1) (by rw [launch_last, h2]; simp)
  have mark : ∀ (x now : Nat) (f : Bridge I A → Bridge I A), But Live (idInsert x c.dirty)
      ({ c with lastNow := some now, conns := c.conns.modify x f, dirty := idInsert x c.dirty } : Coord I A) := by
    intro x now f y b hb hy
    have hyx : y ≠ x := fun e => hy (mem_idInsert.2 (.inl e))
    refine h.but y b ?_ (fun hm => hy (mem_idInsert.2 (.inr hm)))
    simp only [Map.get?_modify] at hb
    rw [if_neg (by first | exact hyx | exact fun e => hyx e.symm)] at hb
    exact hb
  have keep : ∀ {c' : Coord I A}, (∀ y b, c'.conns.get? y = some b → c.conns.get? y = some b) → c'.dirty = c.dirty →
      c'.reapPending = c.reapPending → (c.lastNow ≠ none → c'.lastNow ≠ none) → Tidy c' :=
    fun h1 h2 h3 h4 => ⟨fun x b hb ht => by rw [h2, h3]; exact h.live x b (h1 x b hb) ht,
      fun x b hb => h4 (h.time x b (h1 x b hb))⟩
  cases op with
  | data x bytes eof now => exact tick now _ (mark x now _) rfl
  | dialFailed x now => exact tick now _ (mark x now _) rfl
  | transportError x now => exact tick now _ (mark x now _) rfl
  | timeout now =>
    refine tick now _ ?_ rfl
    intro y b hb hy
    exact h.but y b hb (fun hm => hy (mem_idInserts.2 (.inr hm)))
  | startPushPull peer kind now => exact tock _ _ now _ h.but rfl
  | startReliablePing pid peer seq d now => exact tock _ _ now _ h.but rfl
  | startUserMessage peer payload now =>
    simp only [Coord.step, startUserMessage]
    split
    · exact keep (fun _ _ h => h) rfl rfl (fun _ h => by cases h)
    · exact tock _ _ now _ h.but rfl
  | accept src now =>
    simp only [Coord.step, accept]
    split
    · exact keep (fun _ _ h => h) rfl rfl (fun _ h => by cases h)
    · split
      · exact keep (fun _ _ h => h) rfl rfl (fun _ h => by cases h)
      · refine ⟨fun y b hb ht => ?_, fun _ _ _ h => (by cases h)⟩
        simp only [Map.get?_insert] at hb
        split at hb
        · cases hb; simp [Bridge.new, Bridge.isTerminal] at ht
        · exact h.live y b hb ht
  | gossip src datagram now =>
    simp only [Coord.step, gossip]
    split
    · exact keep (fun _ _ h => h) rfl rfl (fun _ h => by cases h)
    · split <;> exact keep (fun _ _ h => h) rfl rfl (fun _ h => by cases h)
  | leave now farewell =>
    have key : ∀ (l : List Nat) (c1 : Coord I A), c1.dirty = c.dirty → c1.reapPending = c.reapPending → c1.lastNow = some now →
        (∀ y b, c1.conns.get? y = some b → c.conns.get? y = some b) →
        (l.foldl (fun c x => if c.hasBytes x = true then c.cancel x else c) c1).dirty = c.dirty ∧
        (l.foldl (fun c x => if c.hasBytes x = true then c.cancel x else c) c1).reapPending = c.reapPending ∧
        (l.foldl (fun c x => if c.hasBytes x = true then c.cancel x else c) c1).lastNow = some now ∧
        ∀ y b, (l.foldl (fun c x => if c.hasBytes x = true then c.cancel x else c) c1).conns.get? y = some b → c.conns.get? y = some b := by
      intro l
      induction l with
      | nil => intro c1 h1 h2 h3 h4; exact ⟨h1, h2, h3, h4⟩
      | cons x l ih =>
        intro c1 h1 h2 h3 h4
        simp only [List.foldl_cons]
        split
        · refine ih _ h1 h2 h3 ?_
          intro y b hy
          simp only [cancel, teardown, purge, Map.get?_erase] at hy
          split at hy
          · cases hy
          · exact h4 y b hy
        · exact ih _ h1 h2 h3 h4
    obtain ⟨g1, g2, g3, g4⟩ := key (T.order c.tick ((c.metas.filter (fun e => e.2.outbound)).map Prod.fst))
      { c with lastNow := some now, dials := [], kinds := [], connects := [], ingress := [], tick := c.tick + 1 } rfl rfl rfl (fun _ _ h => h)
    refine keep g4 g1 g2 (fun _ hn => ?_)
    exact absurd (g3.symm.trans hn) (by simp)
  | setEncryption ring =>
    simp only [Coord.step, Coord.setEncryption]
    split
    · exact keep (fun _ _ h => h) rfl rfl id
    · have hA : ∀ (l : List Nat) (c1 : Coord I A), (l.foldl abortFailed c1).conns = c1.conns ∧ (l.foldl abortFailed c1).lastNow = c1.lastNow ∧
          (l.foldl abortFailed c1).reapPending = c1.reapPending ∧ ∀ y, y ∈ l ∨ y ∈ c1.dirty → y ∈ (l.foldl abortFailed c1).dirty := by
        intro l
        induction l with
        | nil => intro c1; exact ⟨rfl, rfl, rfl, fun y h => by simpa using h⟩
        | cons x l ih =>
          intro c1
          obtain ⟨a1, a2, a3, a4⟩ := ih (abortFailed c1 x)
          refine ⟨a1, a2, a3, fun y hy => a4 y ?_⟩
          rcases hy with hy | hy
          · rcases List.mem_cons.1 hy with hy | hy
            · exact .inr (mem_idInsert.2 (.inl hy))
            · exact .inl hy
          · exact .inr (mem_idInsert.2 (.inr hy))
      have hA := hA (T.order c.tick ((c.conns.filter (fun e => !e.2.isFailed)).map Prod.fst))
        ({ c with conns := c.conns.map (fun (e : Nat × Bridge I A) => (e.1, e.2.setEncryption ring)), tick := c.tick + 1 } : Coord I A)
      obtain ⟨a1, a2, a3, a4⟩ := hA
      have hall : ∀ y b, ((T.order c.tick ((c.conns.filter (fun e => !e.2.isFailed)).map Prod.fst)).foldl abortFailed
          ({ c with conns := c.conns.map (fun (e : Nat × Bridge I A) => (e.1, e.2.setEncryption ring)), tick := c.tick + 1 } : Coord I A)).conns.get? y = some b →
          ∃ b0, c.conns.get? y = some b0 := by
        intro y b hb
        have hb := (congrArg (fun m => Map.get? m y) a1).symm.trans hb
        have hb := (get?_map (fun b => Bridge.setEncryption b ring) c.conns y).symm.trans hb
        rw [Option.map_eq_some_iff] at hb
        obtain ⟨b0, h0, rfl⟩ := hb
        exact ⟨b0, h0⟩
      refine ⟨fun y b hb _ => ?_, fun y b hb => ?_⟩
      · obtain ⟨b0, h0⟩ := hall y b hb
        cases hf : b0.isFailed with
        | true =>
          obtain ⟨g1, g2⟩ := h.live y b0 h0 (Bridge.terminal_of_failed hf)
          refine ⟨a4 y (.inr g1), ?_⟩
          exact Bool.or_eq_true_iff.2 (.inl (a3.trans g2))
        | false =>
          have hm : y ∈ (c.conns.filter (fun e => !e.2.isFailed)).map Prod.fst :=
            List.mem_map.2 ⟨(y, b0), List.mem_filter.2 ⟨Map.mem_of_get? h0, by simp [hf]⟩, rfl⟩
          refine ⟨a4 y (.inl ((T.order_perm _ _).mem_iff.2 hm)), ?_⟩
          have : ((c.conns.filter (fun e => !e.2.isFailed)).map Prod.fst).isEmpty = false := by
            cases hl : (c.conns.filter (fun e => !e.2.isFailed)).map Prod.fst with
            | nil => rw [hl] at hm; cases hm
            | cons => rfl
          exact Bool.or_eq_true_iff.2 (.inr (by rw [this]; rfl))
      · obtain ⟨b0, h0⟩ := hall y b hb
        exact fun hn => h.time y b0 h0 (a2.symm.trans hn)
  | setCompression cmp =>
    have hall : ∀ y b, (c.step cfg env X T (.setCompression cmp)).1.conns.get? y = some b →
        ∃ b0, c.conns.get? y = some b0 ∧ b = b0.setCompression cmp := by
      intro y b hb
      have hb := (get?_map (fun b => Bridge.setCompression b cmp) c.conns y).symm.trans hb
      rw [Option.map_eq_some_iff] at hb
      obtain ⟨b0, h0, rfl⟩ := hb
      exact ⟨b0, h0, rfl⟩
    refine ⟨fun y b hb ht => ?_, fun y b hb => ?_⟩
    · obtain ⟨b0, h0, rfl⟩ := hall y b hb
      exact h.live y b0 h0 ht
    · obtain ⟨b0, h0, _⟩ := hall y b hb
      exact h.time y b0 h0
  | pollTransport => simp only [Coord.step, pollTransport]; split <;> exact keep (fun _ _ h => h) rfl rfl id
  | pollAction =>
    simp only [Coord.step, pollAction]
    split
    · exact keep (fun _ _ h => h) rfl rfl id
    · split <;> exact keep (fun _ _ h => h) rfl rfl id
  | pollIngress => simp only [Coord.step, pollIngress]; split <;> exact keep (fun _ _ h => h) rfl rfl id
  | pollEvent =>
    have key : ∀ (n : Nat) (c1 : Coord I A), (pollEventLoop cfg env n c1).1.dirty = c1.dirty ∧
        (pollEventLoop cfg env n c1).1.reapPending = c1.reapPending ∧ (pollEventLoop cfg env n c1).1.lastNow = c1.lastNow ∧
        (pollEventLoop cfg env n c1).1.conns = c1.conns := by
      intro n
      induction n with
      | zero => intro c1; exact ⟨rfl, rfl, rfl, rfl⟩
      | succ n ih =>
        intro c1
        simp only [pollEventLoop]
        split
        · exact ⟨rfl, rfl, rfl, rfl⟩
        · exact ih _
        · exact ⟨rfl, rfl, rfl, rfl⟩
    obtain ⟨g1, g2, g3, g4⟩ := key (c.ep.core.events.length + 1) c
    exact keep (fun y b hb => (congrArg (fun m => Map.get? m y) g4).symm.trans hb) g1 g2 (fun hn e => hn (g3.symm.trans e))
  | requeueDial sid peer d now => simp only [Coord.step, requeueDial]; split <;> exact keep (fun _ _ h => h) rfl rfl (fun _ h => by cases h)
  | direct d =>
    refine keep (fun _ _ h => h) rfl rfl (fun hn => ?_)
    simp only [Coord.step]
    cases d <;> first | exact hn | exact fun h => (by cases h)

theorem tidy_run (e0 : Ep I A) (cmp : CmpOptions) (ops : List (XOp I A)) : Tidy ((Coord.new e0 cmp).run cfg env X T ops) := by
  induction ops using snoc_induction with
  | h0 => exact ⟨fun x b h => by simp [Coord.run, Coord.new] at h, fun x b h => by simp [Coord.run, Coord.new] at h⟩
  | h1 ops op ih => rw [xrun_snoc]; exact ih.step op

/-! ### The streams keep to the deadlines of their exchanges -/

theorem paced_run {t0 : Nat} {e0 : Ep I A} (hnew : Ep.tryNew cfg env t0 = .ok e0) (cmp : CmpOptions)
    (ops : List (XOp I A)) (x : Nat) : ∀ b, (((Coord.new e0 cmp).run cfg env X T ops).view x).br = some b → b.Paced := by
  refine view_run (P := fun _ _ v => ∀ b, v.br = some b → b.Paced) hnew cmp x ?_ ?_ ?_ ops
  · intro b h; cases h
  · intro h ring v op em ring' v' hok _ hp hf b hb
    have go : ∀ f : Bridge I A → Bridge I A, (∀ b, Bridge.Pace b (f b)) → v.br.map f = some b → b.Paced := by
      intro f hf hb
      rw [Option.map_eq_some_iff] at hb
      obtain ⟨b0, h0, rfl⟩ := hb
      exact (hf b0).paced (hp b0 h0)
    cases hf with
    | feed bytes eof now => exact go _ (fun b => Pace.feedAll b _ _ _) hb
    | dialFailed => exact go _ (fun b => .fail b _) hb
    | transportError => exact go _ (fun b => .fail b _) hb
    | encrypt => exact go _ (fun b => .setEncryption b _) hb
    | compress => exact go _ (fun b => .setCompression b _) hb
    | accept src now cmp hn => cases hb; intro s hs; cases hs
    | _ => exact hp b hb
  · intro N L h ring v v' _ hok hp hf b2 hb2
    cases hf with
    | refl => exact hp b2 hb2
    | call => exact hp b2 hb2
    | @bridge b b' hb hs => cases hb2; exact (Pace.bstep hs).paced (hp b hb)
    | @commit b s ev rest r cmp e now hb hs he hlate hc hsw hN => cases hb2; exact (Bridge.commitOne_due hs hc).1 (hp b hb)
    | shutdown => exact hp b2 hb2
    | @collect b m hb hi => cases hb2; exact (Bridge.Pace.transmit b).paced (hp b hb)
    | dial => cases hb2; intro s hs; cases hs
    | @mintOk b m mint s e now hb hi ht hh hmi hst hK hN =>
      cases hb2
      obtain ⟨g1, g2, _⟩ := minted_due hst
      cases hd : s.deadline with
      | none => exact absurd hd g2
      | some d => exact (promote_due g1 hd).2
    | _ => cases hb2

/-- After a timeout, everything still held is live and due later. -/
theorem timeout_swept (c : Coord I A) (now : Nat) :
    But (fun b => b.isTerminal = false ∧ b.Swept now) [] (c.step cfg env X T (.timeout now)).1 := by
  refine But.runTick (now := now) ⟨fun b h _ h2 => ⟨h, h2⟩, fun b h => h⟩ ?_
  intro y b hb hy
  exact absurd (mem_idInserts.2 (.inl (Map.mem_keys_iff.2 (by rw [hb]; rfl)))) hy

/-- A timeout at or after the deadline of an exchange ends it. -/
theorem timeout_ends {t0 : Nat} {e0 : Ep I A} (hnew : Ep.tryNew cfg env t0 = .ok e0) (cmp : CmpOptions)
    (ops : List (XOp I A)) (now x : Nat) {b : Bridge I A}
    (hb : ((Coord.new e0 cmp).run cfg env X T ops).conns.get? x = some b) (hd : b.isTerminal = false → b.deadline ≤ now) :
    (((Coord.new e0 cmp).run cfg env X T (ops ++ [.timeout now])).view x).br = none := by
  have hr0 := Ep.reachable_new hnew
  have hp := paced_run (X := X) (T := T) hnew cmp (ops ++ [.timeout now]) x
  have hpb := paced_run (X := X) (T := T) hnew cmp ops x b hb
  have hsw := timeout_swept (cfg := cfg) (env := env) (X := X) (T := T) ((Coord.new e0 cmp).run cfg env X T ops) now
  have hsh := shape_run (cfg := cfg) (env := env) (X := X) (T := T) e0 cmp (ops ++ [.timeout now])
  have hs := shape_run (cfg := cfg) (env := env) (X := X) (T := T) e0 cmp ops
  have hk := kinded_run (cfg := cfg) (env := env) (X := X) (T := T) hnew cmp ops
  revert hp hsw hsh
  rw [xrun_snoc]
  revert hb hs hk
  generalize (Coord.new e0 cmp).run cfg env X T ops = c
  intro hb hs hk hp hsw hsh
  have hm : Moves cfg env X T (fun t b => t = now ∧ (b.stream = none → b.Swept now ∨ now < b.deadline)) True
      ({ c with lastNow := some now, dirty := c.conns.keys.foldl (fun d x => idInsert x d) c.dirty } : Coord I A)
      (c.step cfg env X T (.timeout now)).1 := by
    refine runTick_moves ⟨fun b hb => ⟨rfl, fun hn => absurd hn hb⟩, fun b hb => ⟨rfl, fun _ => .inl hb⟩,
      fun b hb => ⟨rfl, fun _ => .inr hb⟩⟩ _ ?_
    intro y b hb hy
    exact absurd (mem_idInserts.2 (.inl (Map.mem_keys_iff.2 (by rw [hb]; rfl)))) hy
  have h0 : Same c ({ c with lastNow := some now, dirty := c.conns.keys.foldl (fun d x => idInsert x d) c.dirty } : Coord I A) :=
    ⟨rfl, rfl, rfl, rfl, rfl, rfl, rfl, rfl, rfl, rfl, fun _ _ h => h, List.Sublist.refl _⟩
  have h5 := hm.inv (P := fun c' => Shape cfg env e0 c' ∧ Kinded c' ∧ (c'.view x).born = true ∧
      ∀ b, (c'.view x).br = some b → b.Paced ∧ (b.isTerminal = false → b.deadline ≤ now)) (by
    rintro c' c'' hmv ⟨g1, g2, g3, g4⟩
    refine ⟨g1.move hmv, g2.move hr0 g1 hmv, ?_⟩
    have hok := vok g1 x
    have hst := view_move g1 hmv (fun y m mint s now h1 h2 h3 => g2.meant h1 h2 h3) x
    revert hst g3 g4 hok
    generalize c'.view x = v
    generalize c''.view x = v'
    intro g3 g4 hok hst
    cases hst with
    | refl => exact ⟨g3, g4⟩
    | call => exact ⟨g3, g4⟩
    | @bridge b b' hb hs =>
      refine ⟨g3, fun b2 hb2 => ?_⟩
      cases hb2
      refine ⟨(Pace.bstep hs).paced (g4 b hb).1, fun ht => ?_⟩
      rw [(Pace.bstep hs).due]
      exact (g4 b hb).2 (bstep_live hs ht)
    | @commit b s ev rest r cmp e t hb hs he hlate hc hsw hN =>
      refine ⟨g3, fun b2 hb2 => ?_⟩
      cases hb2
      obtain ⟨k1, k2⟩ := Bridge.commitOne_due hs hc
      refine ⟨k1 (g4 b hb).1, fun ht => ?_⟩
      have hbt := commitOne_live hc ht
      have hbd := (g4 b hb).2 hbt
      rcases hsw with hsw | hsw
      · rw [hbt] at hsw; cases hsw
      · have := hsw.due (g4 b hb).1 (by rw [hs]; simp)
        have := hN.1
        omega
    | shutdown => exact ⟨g3, g4⟩
    | @collect b m hb hi =>
      refine ⟨g3, fun b2 hb2 => ?_⟩
      cases hb2
      exact ⟨(Bridge.Pace.transmit b).paced (g4 b hb).1, fun ht => (g4 b hb).2 ht⟩
    | dial peer sid deadline cmp kind hn => rw [hn] at g3; cases g3
    | @mintOk b m mint s e t hb hi ht hh hmi hst hK hN =>
      exfalso
      have hsh := hok.br b m hb hi
      have hn := hsh.mint.1 (by rw [hmi]; rfl)
      have hbd := (g4 b hb).2 ht
      rcases hN.2 hn with h | h
      · have := h.due (g4 b hb).1 (fun _ => by
          rcases hsh.idle hn with h | h
          · exact h
          · rw [Bridge.terminal_of_failed h] at ht; cases ht)
        omega
      · omega
    | _ => exact ⟨g3, fun b2 hb2 => (by cases hb2)⟩)
    ⟨hs.same h0, hk.move (X := X) (T := T) (N := fun _ _ => True) (L := True) hr0 hs (.book h0), by rw [view_same h0]; simp [view]; exact hs.lt x b hb, fun b2 hb2 => by
      rw [view_same h0] at hb2
      have hb2 : c.conns.get? x = some b2 := hb2
      rw [hb] at hb2; cases hb2
      exact ⟨hpb, hd⟩⟩
  cases hbr : ((c.step cfg env X T (.timeout now)).1.view x).br with
  | none => rfl
  | some b2 =>
    exfalso
    obtain ⟨k1, k2⟩ := hsw x b2 hbr (by simp)
    obtain ⟨m, hm⟩ := hsh.meta_of hbr
    have := k2.due (hp b2 hbr) (fun hn => by
      rcases (hsh.br x b2 m hbr hm).idle hn with h | h
      · exact h
      · rw [Bridge.terminal_of_failed h] at k1; cases k1)
    have := (h5.2.2.2 b2 hbr).2 k1
    omega

/-- The bound holds as long as the exchange is held. -/
theorem guest_run {t0 : Nat} {e0 : Ep I A} (hnew : Ep.tryNew cfg env t0 = .ok e0) (cmp : CmpOptions) (x B : Nat)
    (post : List (XOp I A)) : ∀ (pre : List (XOp I A)), VDue cfg B (((Coord.new e0 cmp).run cfg env X T pre).view x) →
    ((∀ op ∈ uptoService post, ∀ t, instant op = some t → t ≤ B) ∨ ReadyAt x ((Coord.new e0 cmp).run cfg env X T pre)) →
    VDue cfg B (((Coord.new e0 cmp).run cfg env X T (pre ++ post)).view x) := by
  induction post with
  | nil => intro pre h _; rw [List.append_nil]; exact h
  | cons op post ih =>
    intro pre h hB
    have hx : x < ((Coord.new e0 cmp).run cfg env X T pre).nextX := by simpa [view] using h.1
    obtain ⟨_, f2, f3⟩ := (fine_run (cfg := cfg) (env := env) (X := X) (T := T) e0 cmp pre).step (X := X) (T := T) op
    have h1 := due_step (X := X) (T := T) hnew cmp pre op x B h (by
      rcases hB with hB | hB
      · refine .inl (hB op ?_)
        unfold uptoService
        split <;> simp
      · exact .inr hB)
    have e : pre ++ op :: post = (pre ++ [op]) ++ post := by simp
    rw [e]
    refine ih _ h1 ?_
    rw [xrun_snoc]
    rcases hB with hB | hB
    · cases hs : services op with
      | true => exact .inr (fun b hb => f2 hs x b hb (by simp))
      | false =>
        refine .inl (fun o ho => hB o ?_)
        unfold uptoService
        rw [hs]
        simp [ho]
    · exact .inr (f3 x hx hB)

/-- An exchange a peer opened is gone two stream timeouts after `B`. -/
theorem guest_gone {t0 : Nat} {e0 : Ep I A} (hnew : Ep.tryNew cfg env t0 = .ok e0) (cmp : CmpOptions) (x B : Nat)
    (ops : List (XOp I A)) (hd : VDue cfg B (((Coord.new e0 cmp).run cfg env X T ops).view x)) (now : Nat)
    (hn : B + 2 * cfg.streamTimeout ≤ now) :
    ((Coord.new e0 cmp).run cfg env X T (ops ++ [.timeout now])).metas.get? x = none := by
  have hk := (shape_run (cfg := cfg) (env := env) (X := X) (T := T) e0 cmp (ops ++ [.timeout now])).keys x
  refine hk.1 ?_
  have hl := life_run (cfg := cfg) (env := env) (X := X) (T := T) hnew cmp ops x
  cases hb : (((Coord.new e0 cmp).run cfg env X T ops).view x).br with
  | some b =>
    refine timeout_ends (X := X) (T := T) hnew cmp ops now x hb (fun ht => ?_)
    obtain ⟨h1, h2⟩ := (hd.2.2 b hb).2 ht
    have hu := hl.2
    rw [hb] at hu
    by_cases hs : b.stream = none
    · have := h1 hs; omega
    · have h3 := h2 hs
      obtain ⟨p0, ps, g1, g2, _⟩ := hu.1.2 hs
      rw [g1, List.length_map] at h3
      have hlen : ps.length ≤ 1 := by have := g2.cnt.1; omega
      have : cfg.streamTimeout * (1 + ps.length) ≤ cfg.streamTimeout * 2 := Nat.mul_le_mul_left _ (by omega)
      omega
  | none =>
    have hx : (((Coord.new e0 cmp).run cfg env X T ops).view x).born = true := hd.1
    have := view_once (X := X) (T := T) (P := fun v => v.born = true ∧ v.br = none) hnew cmp ops (.timeout now) x ⟨hx, hb⟩
      (fun ring v em ring' v' hok hp hf => by
        cases hf <;> first
          | exact hp
          | (next h => rw [h] at hp; exact absurd hp.1 (by simp)))
      (fun ring v v' hok hp hf => by
        cases hf <;> first
          | exact hp
          | exact ⟨hp.1, rfl⟩
          | (next h => rw [h] at hp; exact absurd hp.1 (by simp))
          | (exfalso; simp_all))
    exact this.2

/-- The bound holds when the connection is accepted. -/
theorem accept_due (e0 : Ep I A) (cmp : CmpOptions) (pre : List (XOp I A)) (src : A) (t x B : Nat)
    (hx : (((Coord.new e0 cmp).run cfg env X T pre).step cfg env X T (.accept src t)).2 = .accepted (some x))
    (hB : t + X.acceptDeadline ≤ B) :
    VDue cfg B (((Coord.new e0 cmp).run cfg env X T (pre ++ [.accept src t])).view x) ∧
    ∀ b, ((Coord.new e0 cmp).run cfg env X T (pre ++ [.accept src t])).conns.get? x = some b →
      b.records = .newAcceptor X.label X.skipLabel ∧ b.phase = .handshaking := by
  rw [xrun_snoc]
  revert hx
  generalize (Coord.new e0 cmp).run cfg env X T pre = c
  simp only [Coord.step, accept]
  split
  · intro h; cases h
  · split
    · intro h; cases h
    · intro h
      simp only [XOut.accepted.injEq, Option.some.injEq] at h
      subst h
      have hb : ∀ b, (c.conns.insert c.nextX (Bridge.new c.nextX (.newAcceptor X.label X.skipLabel) (t + X.acceptDeadline) c.cmp c.ring
          cfg.maxStreamFrameSize)).get? c.nextX = some b → b = Bridge.new c.nextX (.newAcceptor X.label X.skipLabel) (t + X.acceptDeadline) c.cmp c.ring
          cfg.maxStreamFrameSize := by
        intro b hb
        rw [Map.get?_insert, if_pos rfl] at hb
        exact (Option.some.inj hb).symm
      refine ⟨⟨by simp [view], fun m hm => ?_, fun b h => ?_⟩, fun b h => ?_⟩
      · simp only [view, Map.get?_insert, if_true] at hm
        cases hm; rfl
      · have := hb b h
        subst this
        exact ⟨fun s hs => (by cases hs), fun _ => ⟨fun _ => hB, fun hn => absurd rfl hn⟩⟩
      · have := hb b h
        subst this
        exact ⟨rfl, rfl⟩

/-- The coordinator asks to be woken by the deadline of every exchange it holds. -/
theorem wake (e0 : Ep I A) (cmp : CmpOptions) (ops : List (XOp I A)) (x : Nat) {b : Bridge I A}
    (hb : ((Coord.new e0 cmp).run cfg env X T ops).conns.get? x = some b) :
    ∃ w, ((Coord.new e0 cmp).run cfg env X T ops).pollTimeout = some w ∧ (b.isTerminal = false → w ≤ b.deadline) := by
  have ht := tidy_run (cfg := cfg) (env := env) (X := X) (T := T) e0 cmp ops
  revert hb ht
  generalize (Coord.new e0 cmp).run cfg env X T ops = c
  intro hb ht
  have hmin : ∀ (a o : Option Nat) (d : Nat), (∃ w, a = some w ∧ w ≤ d) → ∃ w, Ep.minOpt a o = some w ∧ w ≤ d := by
    rintro _ o d ⟨w, rfl, h⟩
    cases o with
    | none => exact ⟨w, rfl, h⟩
    | some v => exact ⟨min w v, rfl, Nat.le_trans (Nat.min_le_left _ _) h⟩
  have hfold : ∀ {α : Type} (f : α → Option Nat) (l : List α) (a : Option Nat) (d : Nat), (∃ w, a = some w ∧ w ≤ d) →
      ∃ w, l.foldl (fun acc e => Ep.minOpt acc (f e)) a = some w ∧ w ≤ d := by
    intro α f l
    induction l with
    | nil => intro a d h; exact h
    | cons x l ih => intro a d h; exact ih _ _ (hmin _ _ _ h)
  cases hbt : b.isTerminal with
  | true =>
    obtain ⟨_, hr⟩ := ht.live x b hb hbt
    have hl := ht.time x b hb
    unfold pollTimeout
    simp only [hr, if_true]
    cases hl2 : c.lastNow with
    | none => exact absurd hl2 hl
    | some n =>
      generalize (if c.dials.isEmpty = true then _ else _) = best
      cases best with
      | none => exact ⟨n, rfl, fun h => (by cases h)⟩
      | some w => exact ⟨min w n, rfl, fun h => (by cases h)⟩
  | false =>
    have hpb : ∃ w, b.pollTimeout = some w ∧ w ≤ b.deadline := by
      unfold Bridge.pollTimeout
      rw [hbt]
      simp only [Bool.false_eq_true, if_false]
      split
      · exact ⟨_, rfl, Nat.min_le_right _ _⟩
      · exact ⟨_, rfl, Nat.le_refl _⟩
    have h1 : ∀ (l : List (Nat × Bridge I A)) (a : Option Nat), (x, b) ∈ l →
        ∃ w, l.foldl (fun acc e => Ep.minOpt acc e.2.pollTimeout) a = some w ∧ w ≤ b.deadline := by
      intro l
      induction l with
      | nil => intro a h; cases h
      | cons e l ih =>
        intro a h
        rcases List.mem_cons.1 h with h | h
        · subst h
          refine hfold (fun e : Nat × Bridge I A => e.2.pollTimeout) l _ _ ?_
          obtain ⟨w, g1, g2⟩ := hpb
          simp only [g1]
          cases a with
          | none => exact ⟨w, rfl, g2⟩
          | some v => exact ⟨min v w, rfl, Nat.le_trans (Nat.min_le_right _ _) g2⟩
        · exact ih _ h
    have h2 := h1 c.conns c.ep.pollTimeout (Map.mem_of_get? hb)
    have h3 := hfold (fun d : Nat × A × Nat => some d.2.2) c.dials _ _ h2
    have h4 : ∃ w, c.pollTimeout = some w ∧ w ≤ b.deadline := by
      unfold pollTimeout
      simp only []
      split <;> split <;> first | exact h3 | exact hmin _ _ _ h3 | exact hmin _ _ _ (hmin _ _ _ h3)
    obtain ⟨w, g1, g2⟩ := h4
    exact ⟨w, g1, fun _ => g2⟩

end Coord
end Verif
