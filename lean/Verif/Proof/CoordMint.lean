import Verif.Proof.CoordCalm
import Verif.Proof.BridgeDue
import Verif.Proof.BroadcastRun
import Verif.Spec.Timing
/-
The exchanges that wait for their stream are exactly the ones queued for it, every servicing call opens the streams of
those whose connection is set up, and no `expect` of the coordinator fails.
-/
namespace Verif
namespace Coord
variable {I A : Type} [DecidableEq I] [DecidableEq A] {cfg : Cfg I A} {env : Env I A} {X : XCfg} {T : TEnv}

/-- The queue for streams, the ids and the panics are as before. -/
structure Rest (c c' : Coord I A) : Prop where
  unminted : c'.unminted = c.unminted
  nextX : c'.nextX = c.nextX
  panicked : c'.panicked = c.panicked

theorem Rest.refl (c : Coord I A) : Rest c c := ⟨rfl, rfl, rfl⟩

theorem Rest.trans {a b c : Coord I A} (h : Rest a b) (g : Rest b c) : Rest a c :=
  ⟨g.unminted.trans h.unminted, g.nextX.trans h.nextX, g.panicked.trans h.panicked⟩

theorem Rest.complete (c : Coord I A) (x : Nat) (m : Option (XMeta A)) (ok : Bool) : Rest c (c.complete cfg env x m ok) := by
  unfold Coord.complete
  split
  · exact .refl c
  · split <;> exact ⟨rfl, rfl, rfl⟩

theorem Rest.collect (c : Coord I A) (x : Nat) (b : Bridge I A) : Rest c (c.collect x b).1 := by
  unfold Coord.collect
  split
  · exact .refl c
  · split <;> exact ⟨rfl, rfl, rfl⟩

theorem Rest.reap (c : Coord I A) (x : Nat) (b : Bridge I A) : Rest c (c.reap cfg env x b) := by
  have h1 : Rest c (if b.isFailed = true then c.purge x else (c.collect x b).1) := by
    split
    · exact ⟨rfl, rfl, rfl⟩
    · exact .collect c x b
  unfold Coord.reap
  simp only []
  generalize (if b.isFailed = true then c.purge x else (c.collect x b).1) = c1 at h1
  have h2 := h1.trans ((⟨rfl, rfl, rfl⟩ : Rest c1 { c1 with conns := c1.conns.erase x, metas := c1.metas.erase x }).trans
    (Rest.complete (cfg := cfg) (env := env) _ x (c1.metas.get? x) (!b.isFailed)))
  split <;> exact h2.trans ⟨rfl, rfl, rfl⟩

theorem Rest.drainReap (c : Coord I A) (x : Nat) (b : Bridge I A) (now : Nat) :
    Rest c (c.drainReap cfg env T x b now) := by
  unfold Coord.drainReap
  exact (⟨rfl, rfl, rfl⟩ : Rest c (c.absorb x _ _)).trans (.reap _ _ _)

theorem Rest.maybeShutdown (c : Coord I A) (x : Nat) (b : Bridge I A) : Rest c (c.maybeShutdown x b) := by
  unfold Coord.maybeShutdown
  split
  · exact .refl c
  · split
    · exact .refl c
    · split <;> exact ⟨rfl, rfl, rfl⟩

theorem Rest.pumpOne {e0 : Ep I A} (now : Nat) {c : Coord I A} (hs : Shape cfg env e0 c) (x : Nat) :
    Rest c (c.pumpOne cfg env T now x) := by
  unfold Coord.pumpOne
  cases hx : c.conns.get? x with
  | none => exact .refl c
  | some b =>
    simp only []
    obtain ⟨m, hm⟩ := hs.meta_of hx
    have hb := (hs.br x b m hx hm).kin ((Bridge.Kin.replay (CI := env.CI) (CA := env.CA) (T := T) b now).trans
      (Bridge.Kin.pumpOut (Bridge.pumpOut_cases (T := T) _ now)))
    generalize (b.replay env.CI env.CA T now).pumpOut T now = b1 at hb
    split
    · exact .drainReap _ _ _ _
    · next ht =>
      have hp : (b1.phase == Link.recvClosed && b1.stream.isNone) = false := by
        cases hn : b1.stream with
        | some s => simp
        | none =>
          rcases hb.idle hn with h | h
          · rw [h]; rfl
          · exact absurd (Bridge.terminal_of_failed h) ht
      rw [hp, Bool.or_false]
      split
      · exact (⟨rfl, rfl, rfl⟩ : Rest c (c.absorb x _ _)).trans (.drainReap _ _ _ _)
      · exact ((⟨rfl, rfl, rfl⟩ : Rest c (c.absorb x _ _)).trans (.maybeShutdown _ _ _)).trans ⟨rfl, rfl, rfl⟩

/-- Outside `l` no exchange waits for its stream, and the exchanges in `l` do, unless they are gone. -/
structure Awaits (l : List Nat) (c : Coord I A) : Prop where
  wait : ∀ x b, c.conns.get? x = some b → b.stream = none → b.isTerminal = false → x ∈ l
  bare : ∀ x ∈ l, ∀ b, c.conns.get? x = some b → b.stream = none
  known : ∀ x ∈ l, x < c.nextX
  nodup : l.Nodup

/-- All exchanges whose connection is set up have their stream. -/
def Ready (b : Bridge I A) : Prop := b.stream = none → b.isTerminal = false → b.isHandshaking = true

/-- What a call can rely on. -/
structure Fine (cfg : Cfg I A) (env : Env I A) (e0 : Ep I A) (l : List Nat) (c : Coord I A) : Prop where
  shape : Shape cfg env e0 c
  awaits : Awaits l c
  calm : c.panicked = false

theorem idInsert_perm {x : Nat} : ∀ {l : List Nat}, x ∉ l → (idInsert x l).Perm (x :: l)
  | [], _ => .refl _
  | y :: ys, h => by
    unfold idInsert
    split
    · exact .refl _
    · rw [if_neg (fun e => h (by rw [e]; simp))]
      exact ((idInsert_perm (fun hm => h (List.mem_cons_of_mem _ hm))).cons y).trans (.swap _ _ _)

theorem Awaits.pumpOne {e0 : Ep I A} {l : List Nat} (now : Nat) {c : Coord I A} (hs : Shape cfg env e0 c) (h : Awaits l c) (x : Nat) :
    Awaits l (c.pumpOne cfg env T now x) := by
  have hr := Rest.pumpOne (T := T) now hs x
  obtain ⟨_, h1 | ⟨h0, h1⟩ | ⟨b', hb1, hb2, hb3, ⟨b0, g0, g1⟩, h1⟩⟩ := pumpOne_conns (cfg := cfg) (env := env) (T := T) now c x
  · refine ⟨fun y b hy => ?_, fun y hl b hy => ?_, fun y hl => by rw [hr.nextX]; exact h.known y hl, h.nodup⟩ <;>
      rw [h1, Map.get?_erase] at hy <;> split at hy <;> first | (cases hy; done) | skip
    · exact h.wait y b hy
    · exact h.bare y hl b hy
  · refine ⟨fun y b hy => ?_, fun y hl b hy => ?_, fun y hl => by rw [hr.nextX]; exact h.known y hl, h.nodup⟩ <;>
      rw [h1] at hy
    · exact h.wait y b hy
    · exact h.bare y hl b hy
  · refine ⟨fun y b hy => ?_, fun y hl b hy => ?_, fun y hl => by rw [hr.nextX]; exact h.known y hl, h.nodup⟩ <;>
      rw [h1, Map.get?_insert] at hy <;> split at hy
    · next e =>
      cases hy
      subst e
      intro hn ht
      have hn0 := g1.2.2 hn
      rcases g1.1 hn0 with e | e
      · subst e; exact h.wait _ _ g0 hn ht
      · rw [Bridge.terminal_of_failed e] at ht; cases ht
    · exact h.wait y b hy
    · next e =>
      cases hy
      subst e
      exact g1.2.1 (h.bare _ hl _ g0)
    · exact h.bare y hl b hy

theorem Ready.pumpOne {l : List Nat} (now : Nat) {c : Coord I A} (h : But Ready l c) (x : Nat) :
    But Ready l (c.pumpOne cfg env T now x) := by
  intro y b hy hl
  obtain ⟨_, h1 | ⟨h0, h1⟩ | ⟨b', hb1, hb2, hb3, ⟨b0, g0, g1⟩, h1⟩⟩ := pumpOne_conns (cfg := cfg) (env := env) (T := T) now c x
  · rw [h1, Map.get?_erase] at hy
    split at hy
    · cases hy
    · exact h y b hy hl
  · rw [h1] at hy; exact h y b hy hl
  · rw [h1, Map.get?_insert] at hy
    split at hy
    · next e =>
      cases hy
      subst e
      intro hn ht
      have hn0 := g1.2.2 hn
      rcases g1.1 hn0 with e | e
      · subst e; exact h _ _ g0 hl hn ht
      · rw [Bridge.terminal_of_failed e] at ht; cases ht
    · exact h y b hy hl

/-- A new exchange waits for its stream. -/
theorem Awaits.open {c c' : Coord I A} (h : Awaits c.unminted c) {b : Bridge I A} (hb : b.stream = none)
    (h1 : c'.conns = c.conns.insert c.nextX b) (h2 : c'.nextX = c.nextX + 1) (h3 : c'.unminted = idInsert c.nextX c.unminted) :
    Awaits c'.unminted c' := by
  have hx : c.nextX ∉ c.unminted := fun hm => Nat.lt_irrefl _ (h.known _ hm)
  refine ⟨fun y b' hy hn ht => ?_, fun y hl b' hy => ?_, fun y hl => ?_, ?_⟩
  · rw [h1, Map.get?_insert] at hy
    rw [h3, mem_idInsert]
    split at hy
    · next e => exact .inl (by first | exact e | exact e.symm)
    · exact .inr (h.wait y b' hy hn ht)
  · rw [h3, mem_idInsert] at hl
    rw [h1, Map.get?_insert] at hy
    split at hy
    · cases hy; exact hb
    · next hne =>
      rcases hl with e | hl
      · exact absurd (by first | exact e | exact e.symm) hne
      · exact h.bare y hl b' hy
  · rw [h3, mem_idInsert] at hl
    rw [h2]
    rcases hl with e | hl
    · omega
    · have := h.known y hl; omega
  · rw [h3]; exact (idInsert_perm hx).nodup_iff.2 (List.nodup_cons.2 ⟨hx, h.nodup⟩)

/-- The instants do not matter for what follows. -/
theorem all_allowed (now : Nat) : Allows (I := I) (A := A) (fun _ _ => True) now :=
  ⟨fun _ _ => trivial, fun _ _ => trivial, fun _ _ => trivial⟩

theorem all_due {l : List Nat} (now : Nat) (c : Coord I A) : But (Due (fun _ _ => True) now) l c :=
  fun _ _ _ _ _ _ => trivial

theorem Shape.moves {N : Nat → Bridge I A → Prop} {L : Prop} {e0 : Ep I A} {c c' : Coord I A} (hm : Moves cfg env X T N L c c')
    (h : Shape cfg env e0 c) : Shape cfg env e0 c' := hm.inv (P := Shape cfg env e0) (fun m h => h.move m) h

theorem Fine.pump (X : XCfg) {e0 : Ep I A} {l : List Nat} (now : Nat) {c : Coord I A} (h : Fine cfg env e0 l c) :
    Fine cfg env e0 l (c.pump cfg env T now) ∧ Rest c (c.pump cfg env T now) ∧
      ∀ l', But Ready l' c → But Ready l' (c.pump cfg env T now) := by
  unfold Coord.pump
  have h0 : Fine cfg env e0 l ({ c with dirty := [] } : Coord I A) :=
    ⟨h.shape.same ⟨rfl, rfl, rfl, rfl, rfl, rfl, rfl, rfl, rfl, rfl, fun _ _ h => h, List.Sublist.refl _⟩,
      ⟨h.awaits.wait, h.awaits.bare, h.awaits.known, h.awaits.nodup⟩, h.calm⟩
  have hr : Rest c ({ c with dirty := [] } : Coord I A) := ⟨rfl, rfl, rfl⟩
  have hb : ∀ l', But Ready l' c → But Ready l' ({ c with dirty := [] } : Coord I A) := fun _ h => h
  revert h0 hr hb
  generalize ({ c with dirty := [] } : Coord I A) = c1
  generalize c.dirty = d
  intro h0 hr hb
  induction d generalizing c1 with
  | nil => exact ⟨h0, hr, hb⟩
  | cons x d ih =>
    have r1 := Rest.pumpOne (T := T) now h0.shape x
    exact ih _ ⟨h0.shape.moves (pumpOne_moves (X := X) (L := True) (all_allowed now) c1 x), h0.awaits.pumpOne now h0.shape x,
      by rw [r1.panicked]; exact h0.calm⟩ (hr.trans r1) (fun l' hl => Ready.pumpOne now (hb l' hl) x)

theorem Fine.mintOne (X : XCfg) (T : TEnv) {e0 : Ep I A} {l : List Nat} (now : Nat) {c : Coord I A} {x : Nat}
    (h : Fine cfg env e0 (x :: (l ++ c.unminted)) c)
    (hr : ∀ y ∈ c.unminted, ∀ b, c.conns.get? y = some b → Ready b) :
    Fine cfg env e0 (l ++ (c.mintOne cfg env now x).unminted) (c.mintOne cfg env now x) ∧
    ∀ y ∈ (c.mintOne cfg env now x).unminted, ∀ b, (c.mintOne cfg env now x).conns.get? y = some b → Ready b := by
  have hsh := h.shape.moves (mintOne_moves (X := X) (T := T) (L := True) (cfg := cfg) (env := env) c x (all_due now c))
  obtain ⟨hx0, hnd⟩ := List.nodup_cons.1 h.awaits.nodup
  have hxl : x ∉ l ∧ x ∉ c.unminted := by simpa using hx0
  -- the exchange is no longer to be minted
  have gone : ∀ c1 : Coord I A, Shape cfg env e0 c1 → c1.unminted = c.unminted → c1.nextX = c.nextX → c1.panicked = c.panicked →
      (∀ y, y ≠ x → c1.conns.get? y = c.conns.get? y) →
      (∀ b, c1.conns.get? x = some b → b.stream = none → b.isTerminal = true) →
      Fine cfg env e0 (l ++ c1.unminted) c1 ∧ ∀ y ∈ c1.unminted, ∀ b, c1.conns.get? y = some b → Ready b := by
    intro c1 e0 e1 e2 e3 e4 e5
    refine ⟨⟨e0, ⟨fun y b hy hn ht => ?_, fun y hl b hy => ?_, fun y hl => ?_, by rw [e1]; exact hnd⟩, by rw [e3]; exact h.calm⟩, ?_⟩
    · by_cases hyx : y = x
      · subst hyx; rw [e5 b hy hn] at ht; cases ht
      · rw [e4 y hyx] at hy
        have := h.awaits.wait y b hy hn ht
        rw [e1]
        simpa [hyx] using this
    · have hyx : y ≠ x := by
        intro e; subst e; rw [e1] at hl; exact hx0 hl
      rw [e4 y hyx] at hy
      exact h.awaits.bare y (List.mem_cons_of_mem _ (by rw [← e1]; exact hl)) b hy
    · rw [e2]; exact h.awaits.known y (List.mem_cons_of_mem _ (by rw [← e1]; exact hl))
    · intro y hl b hy
      rw [e1] at hl
      have hyx : y ≠ x := fun e => hxl.2 (by rw [← e]; exact hl)
      rw [e4 y hyx] at hy
      exact hr y hl b hy
  revert hsh
  unfold Coord.mintOne
  cases hx : c.conns.get? x with
  | none =>
    intro hsh
    exact gone c hsh rfl rfl rfl (fun _ _ => rfl) (fun b hb => by rw [hx] at hb; cases hb)
  | some b =>
    simp only []
    by_cases ht : b.isTerminal = true
    · rw [if_pos ht]
      intro hsh
      exact gone c hsh rfl rfl rfl (fun _ _ => rfl) (fun b' hb _ => by rw [hx] at hb; cases hb; exact ht)
    · rw [if_neg ht]
      by_cases hh : b.isHandshaking = true
      · rw [if_pos hh]
        intro hsh
        have hp := idInsert_perm hxl.2
        have hm : ∀ y, y ∈ l ++ idInsert x c.unminted ↔ y ∈ x :: (l ++ c.unminted) := by
          intro y; simp only [List.mem_append, mem_idInsert, List.mem_cons]
          constructor
          · rintro (h | h | h) <;> simp [h]
          · rintro (h | h | h) <;> simp [h]
        refine ⟨⟨hsh, ⟨fun y b hy hn ht => (hm y).2 (h.awaits.wait y b hy hn ht), fun y hl => h.awaits.bare y ((hm y).1 hl),
          fun y hl => h.awaits.known y ((hm y).1 hl), ?_⟩, h.calm⟩, ?_⟩
        · refine ((List.Perm.append_left l hp).trans List.perm_middle).nodup_iff.2 h.awaits.nodup
        · intro y hl b' hy
          simp only [mem_idInsert] at hl
          rcases hl with e | hl
          · subst e; rw [hx] at hy; cases hy; exact fun _ _ => hh
          · exact hr y hl b' hy
      · rw [if_neg hh]
        have hnone := h.awaits.bare x List.mem_cons_self b hx
        obtain ⟨m, hm⟩ := h.shape.meta_of hx
        have hmi := (h.shape.br x b m hx hm).mint.2 hnone
        simp only [hm]
        cases hmm : m.mint with
        | none => rw [hmm] at hmi; cases hmi
        | some mint =>
          simp only []
          have hpr : ∀ (c2 : Coord I A) (s : Stream I A), Shape cfg env e0 (c2.promoteX x s) → c2.conns = c.conns → c2.unminted = c.unminted →
              c2.nextX = c.nextX → c2.panicked = c.panicked → s.pollTimeout ≠ none →
              Fine cfg env e0 (l ++ (c2.promoteX x s).unminted) (c2.promoteX x s) ∧
                ∀ y ∈ (c2.promoteX x s).unminted, ∀ b, (c2.promoteX x s).conns.get? y = some b → Ready b := by
            intro c2 s g0 g1 g2 g3 g4 g5
            refine gone _ g0 g2 g3 ?_ (fun y hyx => ?_) (fun b' hb' hn => ?_)
            · simp only [promoteX, g4]
              cases hpt : s.pollTimeout with
              | none => exact absurd hpt g5
              | some d => simp
            · simp only [promoteX, Map.get?_modify, g1]
              rw [if_neg (by first | exact hyx | exact fun e => hyx e.symm)]
            · simp only [promoteX, Map.get?_modify, if_true, g1, hx, Option.map_some, Option.some.injEq] at hb'
              subst hb'
              simp [Bridge.promote] at hn
          have her : ∀ c2 : Coord I A, Shape cfg env e0 c2 → c2.conns = c.conns.erase x → c2.unminted = c.unminted →
              c2.nextX = c.nextX → c2.panicked = c.panicked →
              Fine cfg env e0 (l ++ c2.unminted) c2 ∧ ∀ y ∈ c2.unminted, ∀ b, c2.conns.get? y = some b → Ready b := by
            intro c2 g0 g1 g2 g3 g4
            refine gone _ g0 g2 g3 g4 (fun y hyx => ?_) (fun b' hb' hn => ?_)
            · rw [g1, Map.get?_erase, if_neg (by first | exact hyx | exact fun e => hyx e.symm)]
            · rw [g1, Map.get?_erase, if_pos rfl] at hb'; cases hb'
          cases mint with
          | outbound sid =>
            simp only [callEp]
            split
            · next c2 s heq =>
              obtain ⟨h1, h2⟩ := Prod.mk.inj heq
              intro hsh
              have hd := (minted_due (mint := .outbound sid) h2)
              exact hpr c2 s hsh (by rw [← h1]) (by rw [← h1]) (by rw [← h1]) (by rw [← h1]) (by rw [hd.1]; exact hd.2.1)
            · next c2 _ _ heq =>
              obtain ⟨h1, _⟩ := Prod.mk.inj heq
              intro hsh
              have hr2 := Rest.complete (cfg := cfg) (env := env)
                ({ (c2.purge x).purgeConnect x with
                    conns := ((c2.purge x).purgeConnect x).conns.erase x,
                    metas := ((c2.purge x).purgeConnect x).metas.erase x } : Coord I A) x
                (((c2.purge x).purgeConnect x).metas.get? x) false
              have hc2 := (complete_conns (cfg := cfg) (env := env)
                ({ (c2.purge x).purgeConnect x with
                    conns := ((c2.purge x).purgeConnect x).conns.erase x,
                    metas := ((c2.purge x).purgeConnect x).metas.erase x } : Coord I A) x
                (((c2.purge x).purgeConnect x).metas.get? x) false).1
              exact her _ hsh (hc2.trans (by rw [← h1]; rfl)) (hr2.unminted.trans (by rw [← h1]; rfl)) (hr2.nextX.trans (by rw [← h1]; rfl))
                (hr2.panicked.trans (by rw [← h1]; rfl))
          | inbound peer =>
            simp only [callEp]
            split
            · next c2 s heq =>
              obtain ⟨h1, h2⟩ := Prod.mk.inj heq
              intro hsh
              have hd := (minted_due (mint := .inbound peer) h2)
              exact hpr c2 s hsh (by rw [← h1]) (by rw [← h1]) (by rw [← h1]) (by rw [← h1]) (by rw [hd.1]; exact hd.2.1)
            · next c2 _ _ heq =>
              obtain ⟨h1, _⟩ := Prod.mk.inj heq
              intro hsh
              exact her _ hsh (by rw [← h1]; rfl) (by rw [← h1]; rfl) (by rw [← h1]; rfl) (by rw [← h1]; rfl)

/-- After minting every exchange whose connection is set up has its stream. -/
theorem Fine.mintAll (X : XCfg) (T : TEnv) {e0 : Ep I A} (now : Nat) {c : Coord I A} (h : Fine cfg env e0 c.unminted c) :
    Fine cfg env e0 (c.mintAll cfg env now).unminted (c.mintAll cfg env now) ∧ But Ready [] (c.mintAll cfg env now) := by
  unfold Coord.mintAll
  have key : ∀ (l : List Nat) (c1 : Coord I A), Fine cfg env e0 (l ++ c1.unminted) c1 →
      (∀ y ∈ c1.unminted, ∀ b, c1.conns.get? y = some b → Ready b) →
      Fine cfg env e0 (l.foldl (Coord.mintOne cfg env now) c1).unminted (l.foldl (Coord.mintOne cfg env now) c1) ∧
        But Ready [] (l.foldl (Coord.mintOne cfg env now) c1) := by
    intro l
    induction l with
    | nil =>
      intro c1 h1 h2
      exact ⟨h1, fun y b hy _ hn ht => h2 y (h1.awaits.wait y b hy hn ht) b hy hn ht⟩
    | cons x l ih =>
      intro c1 h1 h2
      have := h1.mintOne X T now h2
      exact ih _ this.1 this.2
  refine key c.unminted _ ?_ (by intro y hy; cases hy)
  simp only [List.append_nil]
  exact ⟨h.shape.same ⟨rfl, rfl, rfl, rfl, rfl, rfl, rfl, rfl, rfl, rfl, fun _ _ h => h, List.Sublist.refl _⟩,
      ⟨h.awaits.wait, h.awaits.bare, h.awaits.known, h.awaits.nodup⟩, h.calm⟩

theorem Fine.dialOne {e0 : Ep I A} {now : Nat} {c : Coord I A} {d : Nat × A × Nat}
    (h : Fine cfg env e0 c.unminted c) (hsh : Shape cfg env e0 (c.dialOne cfg env X now d)) :
    Fine cfg env e0 (c.dialOne cfg env X now d).unminted (c.dialOne cfg env X now d) := by
  revert hsh
  rcases dialOne_cases (cfg := cfg) (env := env) (X := X) now c d with ⟨e, _⟩ | ⟨e, _⟩ <;> rw [e] <;> intro hsh
  · exact ⟨hsh, ⟨h.awaits.wait, h.awaits.bare, h.awaits.known, h.awaits.nodup⟩, h.calm⟩
  · exact ⟨hsh, h.awaits.open (b := Bridge.new _ _ _ _ _ _) rfl rfl rfl rfl, h.calm⟩

theorem Fine.serviceDials (T : TEnv) {e0 : Ep I A} (now : Nat) {c : Coord I A} (h : Fine cfg env e0 c.unminted c) :
    Fine cfg env e0 (c.serviceDials cfg env X now).unminted (c.serviceDials cfg env X now) := by
  unfold Coord.serviceDials
  split
  · exact h
  · next hr =>
    simp only []
    have hr' : ({ (c.callEp cfg env none .sieveDials).1 with dials := [] } : Coord I A).ep.isRunning = true := by
      have : c.ep.isRunning = true := by simpa using hr
      exact this
    have h0 : Fine cfg env e0 ({ (c.callEp cfg env none .sieveDials).1 with dials := [] } : Coord I A).unminted
        { (c.callEp cfg env none .sieveDials).1 with dials := [] } :=
      ⟨(h.shape.call none .sieveDials).same ⟨rfl, rfl, rfl, rfl, rfl, rfl, rfl, rfl, rfl, rfl, fun _ _ h => h, List.Sublist.refl _⟩,
        ⟨h.awaits.wait, h.awaits.bare, h.awaits.known, h.awaits.nodup⟩, h.calm⟩
    revert h0 hr'
    generalize ({ (c.callEp cfg env none .sieveDials).1 with dials := [] } : Coord I A) = c1
    generalize c.dials ++ dialsOf c.ep.sieveDials.2 = l
    intro hr' h0
    induction l generalizing c1 with
    | nil => exact h0
    | cons d l ih =>
      refine ih _ (by rw [dialOne_running]; exact hr') (h0.dialOne ?_)
      exact h0.shape.move (Move.dial (T := T) (N := fun _ _ => True) (L := True) now d hr')

theorem Fine.collectTransmits (X : XCfg) (T : TEnv) {e0 : Ep I A} {c : Coord I A} (h : Fine cfg env e0 c.unminted c) :
    Fine cfg env e0 c.collectTransmits.unminted c.collectTransmits ∧
      ∀ l', But Ready l' c → But Ready l' c.collectTransmits := by
  have hsh := h.shape.moves (collectTransmits_moves (X := X) (T := T) (N := fun _ _ => True) (L := True) c)
  have key : ∀ (l : List Nat) (c1 : Coord I A), Rest c c1 →
      (∀ y b, c1.conns.get? y = some b → ∃ b0, c.conns.get? y = some b0 ∧ b.stream = b0.stream ∧ b.isTerminal = b0.isTerminal ∧
        b.isHandshaking = b0.isHandshaking) →
      let c2 := l.foldl (fun c x =>
        match c.conns.get? x with
        | none => c
        | some b => { (c.collect x b).1 with conns := (c.collect x b).1.conns.insert x (c.collect x b).2 }) c1
      Rest c c2 ∧ ∀ y b, c2.conns.get? y = some b → ∃ b0, c.conns.get? y = some b0 ∧ b.stream = b0.stream ∧
        b.isTerminal = b0.isTerminal ∧ b.isHandshaking = b0.isHandshaking := by
    intro l
    induction l with
    | nil => intro c1 h1 h2; exact ⟨h1, h2⟩
    | cons x l ih =>
      intro c1 h1 h2
      simp only [List.foldl_cons]
      refine ih _ ?_ ?_
      · split
        · exact h1
        · next b hb => exact h1.trans ((Rest.collect c1 x b).trans ⟨rfl, rfl, rfl⟩)
      · split
        · exact h2
        · next b hb =>
          intro y b' hy
          simp only [(collect_conns c1 x b).1, Map.get?_insert] at hy
          split at hy
          · next e =>
            cases hy
            subst e
            obtain ⟨b0, g1, g2, g3, g4⟩ := h2 _ b hb
            refine ⟨b0, g1, ?_⟩
            unfold Coord.collect
            split
            · exact ⟨g2, g3, g4⟩
            · split <;> exact ⟨g2, g3, g4⟩
          · exact h2 y b' hy
  obtain ⟨hr, hk⟩ := key c.pumped ({ c with pumped := [] } : Coord I A) ⟨rfl, rfl, rfl⟩ (fun y b hy => ⟨b, hy, rfl, rfl, rfl⟩)
  change Rest c c.collectTransmits at hr
  change ∀ y b, c.collectTransmits.conns.get? y = some b → _ at hk
  refine ⟨⟨hsh, ?_, by rw [hr.panicked]; exact h.calm⟩, ?_⟩
  · rw [hr.unminted]
    refine ⟨fun y b hy hn ht => ?_, fun y hl b hy => ?_, fun y hl => by rw [hr.nextX]; exact h.awaits.known y hl, h.awaits.nodup⟩
    · obtain ⟨b0, g1, g2, g3, _⟩ := hk y b hy
      exact h.awaits.wait y b0 g1 (by rw [← g2]; exact hn) (by rw [← g3]; exact ht)
    · obtain ⟨b0, g1, g2, _⟩ := hk y b hy
      rw [g2]; exact h.awaits.bare y hl b0 g1
  · intro l' hl y b hy hnl hn ht
    obtain ⟨b0, g1, g2, g3, g4⟩ := hk y b hy
    rw [g4]
    exact hl y b0 g1 hnl (by rw [← g2]; exact hn) (by rw [← g3]; exact ht)

theorem Fine.pumped {X : XCfg} {e0 : Ep I A} (now : Nat) {c : Coord I A} (h : Fine cfg env e0 c.unminted c) :
    Fine cfg env e0 (c.pump cfg env T now).unminted (c.pump cfg env T now) := by
  have := h.pump (T := T) X now
  rw [this.2.1.unminted]; exact this.1

theorem Fine.flush (X : XCfg) {e0 : Ep I A} (now : Nat) {c : Coord I A} (h : Fine cfg env e0 c.unminted c) :
    Fine cfg env e0 (c.flush cfg env T now).unminted (c.flush cfg env T now) ∧ But Ready [] (c.flush cfg env T now) := by
  unfold Coord.flush
  have h1 := (h.pumped (X := X) (T := T) now).mintAll X T now
  have h2 := h1.1.pumped (X := X) (T := T) now
  have h3 := (h1.1.pump (T := T) X now).2.2 [] h1.2
  have h4 := h2.collectTransmits X T
  exact ⟨h4.1, h4.2 [] h3⟩

theorem Fine.runTick {e0 : Ep I A} (now : Nat) {c : Coord I A} (h : Fine cfg env e0 c.unminted c) :
    Fine cfg env e0 (c.runTick cfg env X T now).unminted (c.runTick cfg env X T now) ∧
      But Ready [] (c.runTick cfg env X T now) := by
  unfold Coord.runTick
  have h0 := h.pumped (X := X) (T := T) now
  have h1 : Fine cfg env e0 ((c.pump cfg env T now).callEp cfg env none (.timeout now)).1.unminted
      ((c.pump cfg env T now).callEp cfg env none (.timeout now)).1 :=
    ⟨h0.shape.call none _, ⟨h0.awaits.wait, h0.awaits.bare, h0.awaits.known, h0.awaits.nodup⟩, h0.calm⟩
  have h2 := ((h1.mintAll X T now).1.serviceDials (X := X) T now).mintAll X T now
  have h3 := h2.1.pumped (X := X) (T := T) now
  have h4 := (h2.1.pump (T := T) X now).2.2 [] h2.2
  have h5 := h3.collectTransmits X T
  have h6 := h5.2 [] h4
  refine ⟨⟨h5.1.shape.same ⟨rfl, rfl, rfl, rfl, rfl, rfl, rfl, rfl, rfl, rfl, fun _ _ h => h, List.Sublist.refl _⟩,
    ⟨h5.1.awaits.wait, h5.1.awaits.bare, h5.1.awaits.known, h5.1.awaits.nodup⟩, h5.1.calm⟩, h6⟩

theorem Fine.launch {e0 : Ep I A} (sid : Nat) (kind : ExKind) (now : Nat) {c : Coord I A} (h : Fine cfg env e0 c.unminted c)
    (hsh : Shape cfg env e0 { c with kinds := c.kinds.insert sid kind }) :
    Fine cfg env e0 (c.launch cfg env X T sid kind now).unminted (c.launch cfg env X T sid kind now) ∧
      But Ready [] (c.launch cfg env X T sid kind now) := by
  unfold Coord.launch
  have h0 : Fine cfg env e0 ({ c with kinds := c.kinds.insert sid kind } : Coord I A).unminted { c with kinds := c.kinds.insert sid kind } :=
    ⟨hsh, ⟨h.awaits.wait, h.awaits.bare, h.awaits.known, h.awaits.nodup⟩, h.calm⟩
  exact (h0.serviceDials (X := X) T now).flush X now

/-- A call changes the bridges one by one. -/
theorem Fine.bridges {e0 : Ep I A} {c c' : Coord I A} (h : Fine cfg env e0 c.unminted c) (hr : Rest c c')
    (hsh : Shape cfg env e0 c')
    (hk : ∀ y b, c'.conns.get? y = some b → ∃ b0, c.conns.get? y = some b0 ∧ (b.stream = none ↔ b0.stream = none) ∧
      (b.isTerminal = false → b0.isTerminal = false)) : Fine cfg env e0 c'.unminted c' := by
  refine ⟨hsh, ?_, by rw [hr.panicked]; exact h.calm⟩
  rw [hr.unminted]
  refine ⟨fun y b hy hn ht => ?_, fun y hl b hy => ?_, fun y hl => by rw [hr.nextX]; exact h.awaits.known y hl, h.awaits.nodup⟩
  · obtain ⟨b0, g1, g2, g3⟩ := hk y b hy
    exact h.awaits.wait y b0 g1 (g2.1 hn) (g3 ht)
  · obtain ⟨b0, g1, g2, _⟩ := hk y b hy
    exact g2.2 (h.awaits.bare y hl b0 g1)

theorem Fine.same {e0 : Ep I A} {c c' : Coord I A} (h : Fine cfg env e0 c.unminted c) (hr : Rest c c')
    (hs : Shape cfg env e0 c') (hc : c'.conns = c.conns) : Fine cfg env e0 c'.unminted c' :=
  h.bridges hr hs (fun y b hy => ⟨b, by rw [← hc]; exact hy, Iff.rfl, id⟩)

omit [DecidableEq I] [DecidableEq A] in
theorem fail_live {b : Bridge I A} {r : LinkFail} (h : (b.fail r).isTerminal = false) : b.isTerminal = false := by
  rw [Bridge.terminal_of_failed (Bridge.fail_failed b r)] at h; cases h

theorem feedAll_live {b : Bridge I A} {bytes : Bytes} {eof : Bool} {now : Nat}
    (h : (feedAll env T bytes eof now b).isTerminal = false) : b.isTerminal = false := by
  cases ht : b.isTerminal with
  | false => rfl
  | true =>
    exfalso
    have hfeed : ∀ d, b.feed env.CI env.CA T d now = b := by intro d; simp [Bridge.feed, ht]
    have : feedAll env T bytes eof now b = b := by
      unfold feedAll
      by_cases hb : bytes = [] <;> cases eof <;> simp only [hb, if_true, if_false, Bool.false_eq_true, hfeed]
    rw [this, ht] at h; cases h

theorem Fine.modify {e0 : Ep I A} {c : Coord I A} (h : Fine cfg env e0 c.unminted c) (x now : Nat) (f : Bridge I A → Bridge I A)
    (hk : ∀ b, Bridge.Kin b (f b)) (hl : ∀ b, (f b).isTerminal = false → b.isTerminal = false) :
    Fine cfg env e0 ({ c with lastNow := some now, conns := c.conns.modify x f, dirty := idInsert x c.dirty } : Coord I A).unminted
      { c with lastNow := some now, conns := c.conns.modify x f, dirty := idInsert x c.dirty } := by
  refine h.bridges ⟨rfl, rfl, rfl⟩ ((h.shape.modify x f hk).same
    ⟨rfl, rfl, rfl, rfl, rfl, rfl, rfl, rfl, rfl, rfl, fun _ _ h => h, List.Sublist.refl _⟩) ?_
  intro y b hy
  simp only [Map.get?_modify] at hy
  split at hy
  · rw [Option.map_eq_some_iff] at hy
    obtain ⟨b0, g, rfl⟩ := hy
    exact ⟨b0, by first | exact g | (next e => subst e; exact g), (hk b0).nos, hl b0⟩
  · exact ⟨b, hy, Iff.rfl, id⟩

/-- Exchange `y` is not waiting for a stream that could be opened. -/
def ReadyAt (y : Nat) (c : Coord I A) : Prop := ∀ b, c.conns.get? y = some b → Ready b

theorem Fine.step {e0 : Ep I A} {c : Coord I A} (h : Fine cfg env e0 c.unminted c) (op : XOp I A) :
    Fine cfg env e0 (c.step cfg env X T op).1.unminted (c.step cfg env X T op).1 ∧
    (Spec.services op = true → But Ready [] (c.step cfg env X T op).1) ∧
    ∀ y, y < c.nextX → ReadyAt y c → ReadyAt y (c.step cfg env X T op).1 := by
  obtain ⟨c0, hf, hm⟩ := step_moves (cfg := cfg) (env := env) (X := X) (T := T) c op
  have hsh : Shape cfg env e0 (c.step cfg env X T op).1 := (h.shape.first hf (order_mem T)).moves hm
  have tick : ∀ {c' : Coord I A}, (Fine cfg env e0 c'.unminted c' ∧ But Ready [] c') →
      Fine cfg env e0 c'.unminted c' ∧ (Spec.services op = true → But Ready [] c') ∧
        ∀ y, y < c.nextX → ReadyAt y c → ReadyAt y c' :=
    fun h => ⟨h.1, fun _ => h.2, fun y _ _ b hb => h.2 y b hb (by simp)⟩
  have keep : ∀ {c' : Coord I A}, Spec.services op = false → Shape cfg env e0 c' → Rest c c' → c'.conns = c.conns →
      Fine cfg env e0 c'.unminted c' ∧ (Spec.services op = true → But Ready [] c') ∧
        ∀ y, y < c.nextX → ReadyAt y c → ReadyAt y c' :=
    fun h1 h2 h3 h4 => ⟨h.same h3 h2 h4, fun e => (by rw [h1] at e; cases e), fun y _ hr b hy => hr b (by rw [← h4]; exact hy)⟩
  clear hf hm c0
  cases op with
  | data x bytes eof now =>
    exact tick ((h.modify x now (feedAll env T bytes eof now) (fun b => Kin.feedAll b _ _ _) (fun b => feedAll_live)).runTick now)
  | dialFailed x now => exact tick ((h.modify x now _ (fun b => Bridge.Kin.fail b _) (fun b => fail_live)).runTick now)
  | transportError x now => exact tick ((h.modify x now _ (fun b => Bridge.Kin.fail b _) (fun b => fail_live)).runTick now)
  | timeout now =>
    refine tick (Fine.runTick now (h.same (c' := { c with lastNow := some now, dirty := c.conns.keys.foldl (fun d x => idInsert x d) c.dirty })
      ⟨rfl, rfl, rfl⟩ (h.shape.same ⟨rfl, rfl, rfl, rfl, rfl, rfl, rfl, rfl, rfl, rfl, fun _ _ h => h, List.Sublist.refl _⟩) rfl))
  | startPushPull peer kind now =>
    have h0 := h.shape.same (c' := { c with lastNow := some now }) ⟨rfl, rfl, rfl, rfl, rfl, rfl, rfl, rfl, rfl, rfl, fun _ _ h => h, List.Sublist.refl _⟩
    refine tick (Fine.launch _ _ now (h.same ⟨rfl, rfl, rfl⟩ (h0.call none (.startPushPull peer kind now)) rfl) ?_)
    exact h0.move (Move.start (X := X) (T := T) (N := fun _ _ => True) (L := True) _ _ _ (.pushPull peer kind now))
  | startReliablePing pid peer seq d now =>
    have h0 := h.shape.same (c' := { c with lastNow := some now }) ⟨rfl, rfl, rfl, rfl, rfl, rfl, rfl, rfl, rfl, rfl, fun _ _ h => h, List.Sublist.refl _⟩
    refine tick (Fine.launch _ _ now (h.same ⟨rfl, rfl, rfl⟩ (h0.call none (.startReliablePing pid peer seq d)) rfl) ?_)
    exact h0.move (Move.start (X := X) (T := T) (N := fun _ _ => True) (L := True) _ _ _ (.reliablePing pid peer seq d))
  | startUserMessage peer payload now =>
    have h0 := h.shape.same (c' := { c with lastNow := some now }) ⟨rfl, rfl, rfl, rfl, rfl, rfl, rfl, rfl, rfl, rfl, fun _ _ h => h, List.Sublist.refl _⟩
    revert hsh
    simp only [Coord.step, Coord.startUserMessage]
    split
    · intro hsh; exact keep rfl hsh ⟨rfl, rfl, rfl⟩ rfl
    · next sid hr =>
      intro _
      refine tick (Fine.launch _ _ now (h.same ⟨rfl, rfl, rfl⟩ (h0.call none (.startUserMessage peer payload now)) rfl) ?_)
      exact h0.move (Move.start (X := X) (T := T) (N := fun _ _ => True) (L := True) _ _ _ (.userMessage peer payload now sid hr))
  | accept src now =>
    revert hsh
    simp only [Coord.step, Coord.accept]
    split
    · intro hsh; exact keep rfl hsh ⟨rfl, rfl, rfl⟩ rfl
    · split
      · intro hsh; exact keep rfl hsh ⟨rfl, rfl, rfl⟩ rfl
      · intro hsh
        refine ⟨⟨hsh, h.awaits.open (b := Bridge.new _ _ _ _ _ _) rfl rfl rfl rfl, h.calm⟩, fun e => (by cases e), fun y hy hr b hb => ?_⟩
        simp only [Map.get?_insert] at hb
        split at hb
        · next e => subst e; exact absurd hy (Nat.lt_irrefl _)
        · exact hr b hb
  | gossip src datagram now =>
    revert hsh
    simp only [Coord.step, Coord.gossip]
    split
    · intro hsh; exact keep rfl hsh ⟨rfl, rfl, rfl⟩ rfl
    · split <;> (intro hsh; exact keep rfl hsh ⟨rfl, rfl, rfl⟩ rfl)
  | leave now farewell =>
    have key : ∀ (l : List Nat) (c1 : Coord I A), Rest c c1 → (∀ y b, c1.conns.get? y = some b → c.conns.get? y = some b) →
        Rest c (l.foldl (fun c x => if c.hasBytes x = true then c.cancel x else c) c1) ∧
        ∀ y b, (l.foldl (fun c x => if c.hasBytes x = true then c.cancel x else c) c1).conns.get? y = some b → c.conns.get? y = some b := by
      intro l
      induction l with
      | nil => intro c1 h1 h2; exact ⟨h1, h2⟩
      | cons x l ih =>
        intro c1 h1 h2
        simp only [List.foldl_cons]
        refine ih _ ?_ ?_
        · split
          · exact h1.trans ⟨rfl, rfl, rfl⟩
          · exact h1
        · split
          · intro y b hy
            simp only [cancel, teardown, purge, Map.get?_erase] at hy
            split at hy
            · cases hy
            · exact h2 y b hy
          · exact h2
    obtain ⟨g1, g2⟩ := key (T.order c.tick ((c.metas.filter (fun e => e.2.outbound)).map Prod.fst))
      { c with lastNow := some now, dials := [], kinds := [], connects := [], ingress := [], tick := c.tick + 1 } ⟨rfl, rfl, rfl⟩ (fun _ _ h => h)
    have g3 : Rest c (c.step cfg env X T (.leave now farewell)).1 := g1.trans ⟨rfl, rfl, rfl⟩
    have g4 : ∀ y b, (c.step cfg env X T (.leave now farewell)).1.conns.get? y = some b → c.conns.get? y = some b := g2
    exact ⟨h.bridges g3 hsh (fun y b hy => ⟨b, g4 y b hy, Iff.rfl, id⟩), fun e => (by cases e), fun y _ hr b hy => hr b (g4 y b hy)⟩
  | setEncryption ring =>
    revert hsh
    simp only [Coord.step, Coord.setEncryption]
    split
    · intro hsh; exact keep rfl hsh ⟨rfl, rfl, rfl⟩ rfl
    · intro hsh
      have hA := abortFailed_fold (T.order c.tick ((c.conns.filter (fun e => !e.2.isFailed)).map Prod.fst))
        ({ c with conns := c.conns.map (fun (e : Nat × Bridge I A) => (e.1, e.2.setEncryption ring)), tick := c.tick + 1 } : Coord I A)
      have hB : ∀ (l : List Nat) (c1 : Coord I A), Rest c1 (l.foldl abortFailed c1) := by
        intro l
        induction l with
        | nil => intro c1; exact .refl c1
        | cons x l ih => intro c1; exact (⟨rfl, rfl, rfl⟩ : Rest c1 (abortFailed c1 x)).trans (ih _)
      have hB := hB (T.order c.tick ((c.conns.filter (fun e => !e.2.isFailed)).map Prod.fst))
        ({ c with conns := c.conns.map (fun (e : Nat × Bridge I A) => (e.1, e.2.setEncryption ring)), tick := c.tick + 1 } : Coord I A)
      obtain ⟨_, _, _, a4, _⟩ := hA
      have hall : ∀ y b, ((T.order c.tick ((c.conns.filter (fun e => !e.2.isFailed)).map Prod.fst)).foldl abortFailed
          ({ c with conns := c.conns.map (fun (e : Nat × Bridge I A) => (e.1, e.2.setEncryption ring)), tick := c.tick + 1 } : Coord I A)).conns.get? y = some b →
          ∃ b0, c.conns.get? y = some b0 ∧ b = b0.setEncryption ring := by
        intro y b hb
        have hb := (congrArg (fun m => Map.get? m y) a4).symm.trans hb
        have hb := (get?_map (fun b => Bridge.setEncryption b ring) c.conns y).symm.trans hb
        rw [Option.map_eq_some_iff] at hb
        obtain ⟨b0, h0, rfl⟩ := hb
        exact ⟨b0, h0, rfl⟩
      refine ⟨h.bridges ⟨hB.unminted, hB.nextX, hB.panicked⟩ hsh (fun y b hy => ?_), fun e => (by cases e), fun y _ hr b hy _ ht => ?_⟩
      · obtain ⟨b0, g0, rfl⟩ := hall y b hy
        exact ⟨b0, g0, (Bridge.Kin.fail { b0 with ring := ring } _).nos, fun h => fail_live (b := { b0 with ring := ring }) h⟩
      · obtain ⟨b0, g0, rfl⟩ := hall y b hy
        rw [show (b0.setEncryption ring).isTerminal = true from Bridge.terminal_of_failed (Bridge.fail_failed _ _)] at ht
        cases ht
  | setCompression cmp =>
    have hall : ∀ y b, (c.step cfg env X T (.setCompression cmp)).1.conns.get? y = some b →
        ∃ b0, c.conns.get? y = some b0 ∧ b = b0.setCompression cmp := by
      intro y b hb
      have hb := (get?_map (fun b => Bridge.setCompression b cmp) c.conns y).symm.trans hb
      rw [Option.map_eq_some_iff] at hb
      obtain ⟨b0, h0, rfl⟩ := hb
      exact ⟨b0, h0, rfl⟩
    refine ⟨h.bridges ⟨rfl, rfl, rfl⟩ hsh (fun y b hy => ?_), fun e => (by cases e), fun y _ hr b hy => ?_⟩
    · obtain ⟨b0, g0, rfl⟩ := hall y b hy
      exact ⟨b0, g0, Iff.rfl, id⟩
    · obtain ⟨b0, g0, rfl⟩ := hall y b hy
      exact hr b0 g0
  | pollTransport =>
    revert hsh
    simp only [Coord.step, Coord.pollTransport]
    split <;> (intro hsh; exact keep rfl hsh ⟨rfl, rfl, rfl⟩ rfl)
  | pollAction =>
    revert hsh
    simp only [Coord.step, Coord.pollAction]
    split
    · intro hsh; exact keep rfl hsh ⟨rfl, rfl, rfl⟩ rfl
    · split <;> (intro hsh; exact keep rfl hsh ⟨rfl, rfl, rfl⟩ rfl)
  | pollIngress =>
    revert hsh
    simp only [Coord.step, Coord.pollIngress]
    split <;> (intro hsh; exact keep rfl hsh ⟨rfl, rfl, rfl⟩ rfl)
  | pollEvent =>
    have key : ∀ (n : Nat) (c1 : Coord I A), Rest c1 (pollEventLoop cfg env n c1).1 ∧ (pollEventLoop cfg env n c1).1.conns = c1.conns := by
      intro n
      induction n with
      | zero => intro c1; exact ⟨.refl c1, rfl⟩
      | succ n ih =>
        intro c1
        simp only [pollEventLoop]
        split
        · exact ⟨⟨rfl, rfl, rfl⟩, rfl⟩
        · next sid peer d _ =>
          have := ih { (c1.callEp cfg env none .pollEvent).1 with dials := (c1.callEp cfg env none .pollEvent).1.dials ++ [(sid, peer, d)] }
          exact ⟨⟨this.1.unminted, this.1.nextX, this.1.panicked⟩, this.2⟩
        · exact ⟨⟨rfl, rfl, rfl⟩, rfl⟩
    have := key (c.ep.core.events.length + 1) c
    exact keep rfl hsh this.1 this.2
  | requeueDial sid peer d now =>
    revert hsh
    simp only [Coord.step, Coord.requeueDial]
    split <;> (intro hsh; exact keep rfl hsh ⟨rfl, rfl, rfl⟩ rfl)
  | direct d => exact keep rfl hsh ⟨rfl, rfl, rfl⟩ rfl

theorem fine_run (e0 : Ep I A) (cmp : CmpOptions) (ops : List (XOp I A)) :
    Fine cfg env e0 ((Coord.new e0 cmp).run cfg env X T ops).unminted ((Coord.new e0 cmp).run cfg env X T ops) := by
  induction ops using snoc_induction with
  | h0 => exact ⟨.new e0 cmp, ⟨fun x b h => by simp [Coord.run, Coord.new] at h, fun x h => (by cases h), fun x h => (by cases h), .nil⟩, rfl⟩
  | h1 ops op ih =>
    rw [xrun_snoc]
    exact (ih.step op).1
end Coord
end Verif
