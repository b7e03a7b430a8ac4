import Verif.Proof.EngineMoves
import Verif.Proof.CoordDrive
/-
The coordinator inside the engine is one that was run by a history of calls; what this says of the engine's
connections.
-/
namespace Verif.Coord
open Spec
variable {I A : Type} [DecidableEq I] [DecidableEq A]
variable {cfg : Cfg I A} {env : Env I A} {X : XCfg} {T : TEnv}

/-- An exchange that was handed out and has no dial queued never gets one. -/
theorem settled_forever {t0 : Nat} {e0 : Ep I A} (hnew : Ep.tryNew cfg env t0 = .ok e0) (cmp : CmpOptions)
    (pre ops : List (XOp I A)) (x : Nat)
    (h : (((Coord.new e0 cmp).run cfg env X T pre).view x).born = true ∧
      (((Coord.new e0 cmp).run cfg env X T pre).view x).conn = []) :
    (((Coord.new e0 cmp).run cfg env X T (pre ++ ops)).view x).born = true ∧
      (((Coord.new e0 cmp).run cfg env X T (pre ++ ops)).view x).conn = [] := by
  refine view_run_from (cfg := cfg) (env := env) (X := X) (T := T)
    (P := fun _ _ v => v.born = true ∧ v.conn = []) hnew cmp pre x h ?_ ?_ ops
  · intro h ring v op em ring' v' _ _ _ hp hf
    cases hf with
    | keep => exact hp
    | feed => exact hp
    | dialFailed => exact hp
    | transportError => exact hp
    | leave => exact ⟨hp.1, rfl⟩
    | encrypt => refine ⟨hp.1, ?_⟩; simp only []; split <;> first | rfl | exact hp.2
    | compress => exact hp
    | popOut => exact hp
    | popConnect h => rw [hp.2] at h; cases h
    | popDown => exact hp
    | accept _ _ _ h => rw [hp.1] at h; cases h
  · intro N L h ring v v' _ _ hp hs
    cases hs with
    | refl => exact hp
    | call => exact hp
    | bridge => exact hp
    | commit => exact hp
    | shutdown => exact hp
    | collect => exact hp
    | reapFailed => exact hp
    | reapClosed => exact hp
    | dial _ _ _ _ _ h => rw [hp.1] at h; cases h
    | mintOk => exact hp
    | mintOut => exact ⟨hp.1, rfl⟩
    | mintIn => exact hp
    | cancel => exact hp

end Verif.Coord

namespace Verif.Engine
open Verif Coord Spec
variable {I A C S : Type} [DecidableEq I] [DecidableEq A] [DecidableEq C]
variable {cfg : Cfg I A} {env : Env I A} {X : XCfg} {T : TEnv} {E : EEnv S C A}

/-- The calls made to the coordinator, and what they returned. -/
abbrev opsOf (g : Engine I A C S) : List (XOp I A) := g.hist.map Prod.fst
abbrev outsOf (g : Engine I A C S) : List (XOut I A) := g.hist.map Prod.snd

/-- The coordinator is what its calls made of it. -/
def Traced (cfg : Cfg I A) (env : Env I A) (X : XCfg) (T : TEnv) (e0 : Ep I A) (cmp0 : CmpOptions)
    (g : Engine I A C S) : Prop :=
  g.coord = (Coord.new e0 cmp0).run cfg env X T (opsOf g) ∧
    outsOf g = (Coord.new e0 cmp0).outs cfg env X T (opsOf g)

theorem outs_snoc (c : Coord I A) (ops : List (XOp I A)) (op : XOp I A) :
    c.outs cfg env X T (ops ++ [op]) = c.outs cfg env X T ops ++ [((c.run cfg env X T ops).step cfg env X T op).2] := by
  induction ops generalizing c with
  | nil => rfl
  | cons a ops ih =>
    simp only [List.cons_append, Coord.outs]
    rw [ih]
    rfl

/-- How the coordinator and the list of its calls change: not at all, or by one call. -/
inductive HStep (cfg : Cfg I A) (env : Env I A) (X : XCfg) (T : TEnv) (g g' : Engine I A C S) : Option (XOp I A) → Prop
  | none : g'.coord = g.coord → g'.hist = g.hist → HStep cfg env X T g g' none
  | one (op : XOp I A) : g'.coord = (g.coord.step cfg env X T op).1 →
      g'.hist = g.hist ++ [(op, (g.coord.step cfg env X T op).2)] → HStep cfg env X T g g' (some op)

omit [DecidableEq I] [DecidableEq A] in
theorem teardown_coord (g : Engine I A C S) (x now : Nat) :
    (g.teardown E x now).coord = g.coord ∧ (g.teardown E x now).hist = g.hist := by
  unfold teardown
  split
  · exact ⟨rfl, rfl⟩
  · split
    · exact ⟨rfl, rfl⟩
    · split
      · exact ⟨rfl, rfl⟩
      · split
        · exact ⟨rfl, rfl⟩
        · split
          · exact ⟨rfl, rfl⟩
          · split <;> exact ⟨rfl, rfl⟩

omit [DecidableEq I] [DecidableEq A] [DecidableEq C] in
theorem abortExchange_coord (g : Engine I A C S) (x : Nat) :
    (g.abortExchange E x).coord = g.coord ∧ (g.abortExchange E x).hist = g.hist := by
  unfold abortExchange
  split
  · exact ⟨rfl, rfl⟩
  · simp only []
    split <;> exact ⟨rfl, rfl⟩

omit [DecidableEq I] [DecidableEq A] in
theorem settle_coord (g : Engine I A C S) (io : S) (now : Nat) (a : Nat × Outcome C) :
    (Engine.settle E io now g a).coord = g.coord ∧ (Engine.settle E io now g a).hist = g.hist := by
  unfold Engine.settle; split <;> exact ⟨rfl, rfl⟩

omit [DecidableEq I] [DecidableEq A] in
theorem reapOne_coord (g : Engine I A C S) (now : Nat) (c : C) :
    (reapOne E now g c).coord = g.coord ∧ (reapOne E now g c).hist = g.hist := by
  unfold reapOne
  split
  · exact ⟨rfl, rfl⟩
  · split
    · exact ⟨rfl, rfl⟩
    · split <;> exact ⟨rfl, rfl⟩

theorem event_same (g : Engine I A C S) : (g.act cfg env X T E .pollEvent).1.coord = (g.call cfg env X T .pollEvent).1.coord ∧
    (g.act cfg env X T E .pollEvent).1.hist = (g.call cfg env X T .pollEvent).1.hist ∧
    (g.act cfg env X T E .pollEvent).1.pool = g.pool ∧ (g.act cfg env X T E .pollEvent).1.conns = g.conns ∧
    (g.act cfg env X T E .pollEvent).1.listener = g.listener ∧ (g.act cfg env X T E .pollEvent).1.closing = g.closing ∧
    (g.act cfg env X T E .pollEvent).1.log = g.log := by
  simp only [act]
  split <;> (rename_i h; have h1 := congrArg Prod.fst h; simp only at h1; subst h1; exact ⟨rfl, rfl, rfl, rfl, rfl, rfl, rfl⟩)

theorem move_hist {g g' : Engine I A C S} (hm : EMove cfg env X T E g g') : ∃ o, HStep cfg env X T g g' o := by
  cases hm with
  | aside s => exact ⟨_, .none s.coord s.hist⟩
  | reseed => exact ⟨_, .none rfl rfl⟩
  | call op _ => exact ⟨_, .one op rfl rfl⟩
  | packet src m now _ => exact ⟨_, .one _ rfl rfl⟩
  | event => exact ⟨_, .one .pollEvent (event_same g).1 (event_same g).2.1⟩
  | datagram => exact ⟨_, .none rfl rfl⟩
  | listen => exact ⟨_, .none rfl rfl⟩
  | refuse => exact ⟨_, .none rfl rfl⟩
  | decline => exact ⟨_, .one _ rfl rfl⟩
  | accept => exact ⟨_, .one _ rfl rfl⟩
  | connect => exact ⟨_, .one _ rfl rfl⟩
  | dialOk => exact ⟨_, .none rfl rfl⟩
  | dialRefused => exact ⟨_, .one _ rfl rfl⟩
  | dialError => exact ⟨_, .one _ rfl rfl⟩
  | shutdown => exact ⟨_, .one _ rfl rfl⟩
  | close x now => exact ⟨_, .one .pollAction (teardown_coord _ x now).1 (teardown_coord _ x now).2⟩
  | abort x => exact ⟨_, .one .pollAction (abortExchange_coord _ x).1 (abortExchange_coord _ x).2⟩
  | actionNone => exact ⟨_, .one _ rfl rfl⟩
  | fetch => exact ⟨_, .one _ rfl rfl⟩
  | lost => exact ⟨_, .one _ rfl rfl⟩
  | fetchNone => exact ⟨_, .one _ rfl rfl⟩
  | read => exact ⟨_, .one _ rfl rfl⟩
  | eof => exact ⟨_, .one _ rfl rfl⟩
  | write => exact ⟨_, .none rfl rfl⟩
  | promote => exact ⟨_, .none rfl rfl⟩
  | shut => exact ⟨_, .none rfl rfl⟩
  | settle io now x k o => exact ⟨_, .none (settle_coord g io now _).1 (settle_coord g io now _).2⟩
  | reap c now => exact ⟨_, .none (reapOne_coord g now c).1 (reapOne_coord g now c).2⟩

theorem Traced.hstep {e0 : Ep I A} {cmp0 : CmpOptions} {g g' : Engine I A C S} {o : Option (XOp I A)}
    (h : Traced cfg env X T e0 cmp0 g) (hs : HStep cfg env X T g g' o) : Traced cfg env X T e0 cmp0 g' := by
  cases hs with
  | none h1 h2 => exact ⟨by rw [h1, opsOf, h2]; exact h.1, by rw [opsOf, outsOf, h2]; exact h.2⟩
  | one op h1 h2 =>
    refine ⟨?_, ?_⟩
    · rw [h1, opsOf, h2, List.map_append, List.map_singleton, xrun_snoc, ← h.1]
    · rw [opsOf, outsOf, h2, List.map_append, List.map_append, List.map_singleton, List.map_singleton, outs_snoc, ← h.1, ← h.2]

/-- The states the engine goes through. -/
abbrev Reached (cfg : Cfg I A) (env : Env I A) (X : XCfg) (T : TEnv) (E : EEnv S C A) (e0 : Ep I A) (cmp0 : CmpOptions)
    (io0 : S) (handles : List C) (listener : Option C) (g : Engine I A C S) : Prop :=
  EMoves cfg env X T E (base e0 cmp0 io0 handles listener) g

variable {e0 : Ep I A} {cmp0 : CmpOptions} {io0 : S} {handles : List C} {listener : Option C}

theorem traced {g : Engine I A C S} (h : Reached cfg env X T E e0 cmp0 io0 handles listener g) :
    Traced cfg env X T e0 cmp0 g := by
  induction h with
  | refl => exact ⟨rfl, rfl⟩
  | snoc _ hm ih =>
    obtain ⟨o, ho⟩ := move_hist hm
    exact ih.hstep ho

/-- What the coordinator has handed out for an exchange. -/
abbrev given (g : Engine I A C S) (x : Nat) : List (XEmit A) := handed x (outsOf g)

theorem given_none {g g' : Engine I A C S} (h : g'.hist = g.hist) (x : Nat) : given g' x = given g x := by
  rw [given, outsOf, h]

theorem given_one {g g' : Engine I A C S} {op : XOp I A} {o : XOut I A} (h : g'.hist = g.hist ++ [(op, o)]) (x : Nat) :
    given g' x = given g x ++ emitOf x o := by
  rw [given, outsOf, h, List.map_append, handed, List.flatMap_append]
  simp [given, handed]

/-- The drive of an exchange, in the engine. -/
theorem drive {t0 : Nat} (hnew : Ep.tryNew cfg env t0 = .ok e0) {g : Engine I A C S}
    (h : Reached cfg env X T E e0 cmp0 io0 handles listener g) (x : Nat) :
    VDrive cfg env T X.label (given g x) g.coord.ring (g.coord.view x) := by
  have ht := traced h
  have := drive_run (cfg := cfg) (env := env) (X := X) (T := T) hnew cmp0 (opsOf g) x
  rw [← ht.1, ← ht.2] at this
  exact this

theorem shape {g : Engine I A C S} (h : Reached cfg env X T E e0 cmp0 io0 handles listener g) :
    Shape cfg env e0 g.coord := by
  rw [(traced h).1]; exact shape_run e0 cmp0 (opsOf g)

/-- The exchange was handed out and has no dial queued. -/
def Settled (g : Engine I A C S) (x : Nat) : Prop := x < g.coord.nextX ∧ (g.coord.view x).conn = []

theorem Settled.hstep {t0 : Nat} (hnew : Ep.tryNew cfg env t0 = .ok e0) {g g' : Engine I A C S}
    (hr : Reached cfg env X T E e0 cmp0 io0 handles listener g) {o : Option (XOp I A)}
    (hs : HStep cfg env X T g g' o) {x : Nat} (h : Settled g x) : Settled g' x := by
  have ht := traced hr
  have ht' := ht.hstep hs
  have key := settled_forever (cfg := cfg) (env := env) (X := X) (T := T) hnew cmp0 (opsOf g)
  cases hs with
  | none h1 h2 => unfold Settled; rw [h1]; exact h
  | one op h1 h2 =>
    have h3 := key [op] x (by
      rw [← ht.1]
      exact ⟨by simpa [Coord.view] using h.1, h.2⟩)
    have h4 : opsOf g' = opsOf g ++ [op] := by rw [opsOf, h2]; simp
    rw [← h4, ← ht'.1] at h3
    exact ⟨by simpa [Coord.view] using h3.1, h3.2⟩

theorem unborn_given {t0 : Nat} (hnew : Ep.tryNew cfg env t0 = .ok e0) {g : Engine I A C S}
    (hr : Reached cfg env X T E e0 cmp0 io0 handles listener g) {x : Nat} (h : ¬ x < g.coord.nextX) :
    given g x = [] := (drive hnew hr x).unborn (by simpa [Coord.view] using h)

end Verif.Engine
