import Verif.Proof.EngineTrace
import Verif.Proof.CoordStay
import Verif.Spec.Engine
/-
The seeds given to `join`: each is asked once, at the next pump, and none after `leave`.
-/
namespace Verif.Engine
open Verif Coord Spec
variable {I A C S : Type} [DecidableEq I] [DecidableEq A] [DecidableEq C]
variable {cfg : Cfg I A} {env : Env I A} {X : XCfg} {T : TEnv} {E : EEnv S C A}

/-- Neither the start of a join nor the end of the membership. -/
def Idle (op : XOp I A) : Prop := (∀ a k now, op ≠ .startPushPull a k now) ∧ ∀ now f, op ≠ .leave now f

omit [DecidableEq I] [DecidableEq A] [DecidableEq C] in
theorem tame_idle {op : XOp I A} (h : Tame E op) : Idle op :=
  ⟨fun _ _ _ e => (by subst e; cases h), fun _ _ e => (by subst e; cases h)⟩

omit [DecidableEq I] [DecidableEq A] in
theorem teardown_seeds (g : Engine I A C S) (x now : Nat) : (g.teardown E x now).seeds = g.seeds := by
  unfold teardown
  repeat' split
  all_goals rfl

omit [DecidableEq I] [DecidableEq A] in
theorem abortExchange_seeds (g : Engine I A C S) (x : Nat) : (g.abortExchange E x).seeds = g.seeds := by
  unfold abortExchange
  repeat' split
  all_goals rfl

omit [DecidableEq I] [DecidableEq A] [DecidableEq C] in
theorem quiet_idle {op : XOp I A} (h : Quiet E op) : Idle op := by
  rcases h with h | rfl
  · exact tame_idle h
  · exact ⟨by simp, by simp⟩

/-- The calls that moves make by themselves. -/
def Inner : XOp I A → Prop
  | .direct (.packet ..) => True
  | .pollEvent => True
  | .accept .. => True
  | .pollAction => True
  | .dialFailed .. => True
  | .pollTransport => True
  | .data .. => True
  | _ => False

theorem move_call {P : XOp I A → Prop} (hP : ∀ a now, ¬ P (.startPushPull a .join now)) {g g' : Engine I A C S}
    (hm : EMoveP cfg env X T E P g g') :
    g'.seeds = g.seeds ∧ ∃ o, HStep cfg env X T g g' o ∧ ∀ op, o = some op → P op ∨ Inner op := by
  have none : ∀ {g' : Engine I A C S}, g'.coord = g.coord → g'.hist = g.hist → g'.seeds = g.seeds →
      g'.seeds = g.seeds ∧ ∃ o, HStep cfg env X T g g' o ∧ ∀ op, o = some op → P op ∨ Inner op :=
    fun h1 h2 h3 => ⟨h3, _, .none h1 h2, fun _ h => by cases h⟩
  have one : ∀ {g' : Engine I A C S} (op : XOp I A), g'.coord = (g.coord.step cfg env X T op).1 →
      g'.hist = g.hist ++ [(op, (g.coord.step cfg env X T op).2)] → g'.seeds = g.seeds → (P op ∨ Inner op) →
      g'.seeds = g.seeds ∧ ∃ o, HStep cfg env X T g g' o ∧ ∀ op, o = some op → P op ∨ Inner op :=
    fun op h1 h2 h3 h4 => ⟨h3, _, .one op h1 h2, fun _ h => by cases h; exact h4⟩
  cases hm with
  | aside s => exact none s.coord s.hist s.seeds
  | reseed seeds h =>
    have : g.seeds ++ seeds = [] := List.eq_nil_iff_forall_not_mem.2 (fun a ha => hP a 0 (h a ha 0))
    rw [List.append_eq_nil_iff] at this
    exact none rfl rfl (by rw [this.1, this.2])
  | call op h => exact one op rfl rfl rfl (.inl h)
  | packet src m now _ => exact one _ rfl rfl rfl (.inr trivial)
  | event =>
    refine one .pollEvent (event_same g).1 (event_same g).2.1 ?_ (.inr trivial)
    simp only [act]
    split <;> (rename_i h; have h1 := congrArg Prod.fst h; simp only at h1; subst h1; rfl)
  | datagram => exact none rfl rfl rfl
  | listen => exact none rfl rfl rfl
  | refuse => exact none rfl rfl rfl
  | decline => exact one _ rfl rfl rfl (.inr trivial)
  | accept => exact one _ rfl rfl rfl (.inr trivial)
  | connect => exact one _ rfl rfl rfl (.inr trivial)
  | dialOk => exact none rfl rfl rfl
  | dialRefused => exact one _ rfl rfl rfl (.inr trivial)
  | dialError => exact one _ rfl rfl rfl (.inr trivial)
  | shutdown => exact one _ rfl rfl rfl (.inr trivial)
  | close x now =>
    exact one .pollAction (teardown_coord _ x now).1 (teardown_coord _ x now).2 (teardown_seeds _ x now) (.inr trivial)
  | abort x =>
    exact one .pollAction (abortExchange_coord _ x).1 (abortExchange_coord _ x).2 (abortExchange_seeds _ x) (.inr trivial)
  | actionNone => exact one _ rfl rfl rfl (.inr trivial)
  | fetch => exact one _ rfl rfl rfl (.inr trivial)
  | lost => exact one _ rfl rfl rfl (.inr trivial)
  | fetchNone => exact one _ rfl rfl rfl (.inr trivial)
  | read => exact one _ rfl rfl rfl (.inr trivial)
  | eof => exact one _ rfl rfl rfl (.inr trivial)
  | write => exact none rfl rfl rfl
  | promote => exact none rfl rfl rfl
  | shut => exact none rfl rfl rfl
  | settle io now x k o =>
    refine none (settle_coord g io now _).1 (settle_coord g io now _).2 ?_
    unfold settle
    repeat' split
    all_goals rfl
  | reap c now =>
    refine none (reapOne_coord g now c).1 (reapOne_coord g now c).2 ?_
    unfold reapOne
    repeat' split
    all_goals rfl

omit [DecidableEq I] [DecidableEq A] in
theorem inner_idle {op : XOp I A} (h : Inner op) : Idle op :=
  ⟨fun _ _ _ e => (by subst e; cases h), fun _ _ e => (by subst e; cases h)⟩

theorem idle_move {P : XOp I A → Prop} (hP : ∀ op, P op → Idle op) {g g' : Engine I A C S} (hm : EMoveP cfg env X T E P g g') :
    g'.seeds = g.seeds ∧ ∃ o, HStep cfg env X T g g' o ∧ ∀ op, o = some op → Idle op := by
  obtain ⟨h1, o, ho, hi⟩ := move_call (fun a now h => (hP _ h).1 a _ now rfl) hm
  exact ⟨h1, o, ho, fun op e => (hi op e).elim (hP op) inner_idle⟩

omit [DecidableEq I] [DecidableEq A] in
theorem asked_append (a b : List (XOp I A × XOut I A)) : seedsAsked (a ++ b) = seedsAsked a ++ seedsAsked b :=
  List.filterMap_append ..

omit [DecidableEq I] [DecidableEq A] in
theorem asked_idle {op : XOp I A} (h : Idle op) (o : XOut I A) : seedsAsked [(op, o)] = [] := by
  unfold seedsAsked
  rw [List.filterMap_eq_nil_iff]
  intro e he
  rw [List.mem_singleton] at he
  subst he
  simp only
  split
  · next a now => exact absurd rfl (h.1 a _ now)
  · rfl

theorem quiet_kept {g g' : Engine I A C S} (hm : EMovesP cfg env X T E (Quiet E) g g') :
    seedsAsked g'.hist = seedsAsked g.hist ∧ g'.seeds = g.seeds := by
  induction hm with
  | refl => exact ⟨rfl, rfl⟩
  | snoc _ hm ih =>
    obtain ⟨h1, o, ho, hi⟩ := idle_move (fun _ => quiet_idle) hm
    refine ⟨?_, h1.trans ih.2⟩
    rw [← ih.1]
    cases ho with
    | none _ h2 => rw [h2]
    | one op _ h2 => rw [h2, asked_append, asked_idle (hi op rfl), List.append_nil]

variable {e0 : Ep I A} {cmp0 : CmpOptions} {io0 : S} {handles : List C} {listener : Option C}

theorem hstep_running {t0 : Nat} (hnew : Ep.tryNew cfg env t0 = .ok e0) {g g' : Engine I A C S}
    (hr : Reached cfg env X T E e0 cmp0 io0 handles listener g)
    (hr' : Reached cfg env X T E e0 cmp0 io0 handles listener g') {o : Option (XOp I A)} (ho : HStep cfg env X T g g' o)
    (hi : ∀ op, o = some op → ∀ now f, op ≠ .leave now f) : g'.coord.ep.isRunning = g.coord.ep.isRunning := by
  cases ho with
  | none h _ => rw [h]
  | one op h _ =>
    rw [h]
    cases hc : g.coord.ep.isRunning with
    | false => exact step_stopped hnew (shape hr) op hc
    | true => exact step_running hnew (shape hr) op (by rw [← h]; exact shape hr') (hi op rfl) hc

theorem quiet_running {t0 : Nat} (hnew : Ep.tryNew cfg env t0 = .ok e0) {g g' : Engine I A C S}
    (hr : Reached cfg env X T E e0 cmp0 io0 handles listener g) (hm : EMovesP cfg env X T E (Quiet E) g g') :
    g'.coord.ep.isRunning = g.coord.ep.isRunning := by
  induction hm with
  | refl => rfl
  | @snoc a b hm0 hm ih =>
    have h1 := hr.trans (hm0.mono (fun _ => quiet_plain))
    obtain ⟨_, o, ho, hi⟩ := idle_move (fun _ => quiet_idle) hm
    exact (hstep_running hnew h1 (h1.trans ((EMovesP.one hm).mono (fun _ => quiet_plain))) ho (fun op h => (hi op h).2)).trans ih

/-- A pump asks its seeds in the middle, and sends its datagrams at the end. -/
theorem pump_split {g : Engine I A C S} (hn : g.conns.NodupKeys) (now : Nat) (datagrams : List (A × Bytes)) :
    ∃ g5, EMovesP cfg env X T E (Tame E) g g5 ∧ ((g5.cut = true ∧ g.pump cfg env X T E now datagrams = g5) ∨
      ∃ g12, EMovesP cfg env X T E (Tame E) (g5.dialSeeds cfg env X T now) g12 ∧
        ((g12.cut = true ∧ g.pump cfg env X T E now datagrams = g12) ∨
          g.pump cfg env X T E now datagrams = drainTransmits cfg env X T E (g12.coord.ep.net.transmits.length + 1) g12)) := by
  unfold pump
  simp only []
  have h1 : EMovesP cfg env X T E (Tame E) g ((g.reapClosing E now).checkListener cfg env X T E now) :=
    (reapClosing_moves g now).trans (checkListener_moves _ now)
  have h2 := h1.trans (rebalance_moves (nodup_moves h1 hn) now)
  have h3 := h2.trans (foldl_moves (fun g d =>
    if E.blocked d.1 then g else (g.call cfg env X T (.gossip d.1 d.2 now)).1) (fun g d => by
      split
      · exact .refl _
      · next hb => exact .one (.call g _ (show E.blocked d.1 = false by simpa using hb))) datagrams _)
  have h4 := h3.trans (ingest_moves now (((datagrams.foldl (fun g d =>
    if E.blocked d.1 then g else (g.call cfg env X T (.gossip d.1 d.2 now)).1)
    (((g.reapClosing E now).checkListener cfg env X T E now).rebalance cfg env X T E now))).coord.ingress.length + 1) _)
  have h5 := h4.trans (pumpIn_moves _ now)
  revert h5
  generalize (ingest cfg env X T now _ _).pumpIn cfg env X T E now = g5
  intro h5
  refine ⟨g5, h5, ?_⟩
  split
  · next hc => exact .inl ⟨hc, rfl⟩
  · right
    have hn6 : (g5.dialSeeds cfg env X T now).conns.NodupKeys := nodup_moves (dialSeeds_moves (E := E) g5 now) (nodup_moves h5 hn)
    revert hn6
    generalize g5.dialSeeds cfg env X T now = g6
    intro hn6
    have h6 : EMovesP cfg env X T E (Tame E) g6 (g6.call cfg env X T (.timeout now)).1 := .one (.call _ (.timeout now) trivial)
    have h7 := h6.trans (drainActions_moves now E.fuel _ (nodup_moves h6 hn6))
    revert h7
    have hcon := drainActions_connects (cfg := cfg) (env := env) (X := X) (T := T) (E := E) now E.fuel
      (g6.call cfg env X T (.timeout now)).1
    revert hcon
    generalize drainActions cfg env X T E now E.fuel _ = g7
    intro hcon h7
    split
    · next hc => exact ⟨g7, h7, .inl ⟨hc, rfl⟩⟩
    · next hc =>
      have hcon := hcon (by simpa using hc)
      have h8 := h7.snoc (.promote _)
      have h9 := h8.trans (pumpOut_moves _ hcon)
      have h10 := h9.trans (flushShutdowns_moves (nodup_moves h9 hn6))
      have h11 := h10.trans (flushClosing_moves (nodup_moves h10 hn6) now)
      have h12 := h11.trans (rebalance_moves (nodup_moves h11 hn6) now)
      exact ⟨_, h12, .inr rfl⟩

theorem dialSeeds_asked (g : Engine I A C S) (now : Nat) (hr : g.coord.ep.isRunning = true) :
    seedsAsked (g.dialSeeds cfg env X T now).hist = seedsAsked g.hist ++ g.seeds ∧ (g.dialSeeds cfg env X T now).seeds = [] := by
  unfold dialSeeds
  rw [if_neg (by simp [hr])]
  have : ∀ (l : List A) (h : Engine I A C S),
      seedsAsked (l.foldl (fun g seed => (g.call cfg env X T (.startPushPull seed .join now)).1) h).hist = seedsAsked h.hist ++ l ∧
      (l.foldl (fun g seed => (g.call cfg env X T (.startPushPull seed .join now)).1) h).seeds = h.seeds := by
    intro l
    induction l with
    | nil => intro h; simp
    | cons a l ih =>
      intro h
      rw [List.foldl_cons]
      refine ⟨?_, (ih _).2⟩
      rw [(ih _).1]
      show seedsAsked (h.hist ++ [(.startPushPull a .join now, _)]) ++ l = _
      rw [asked_append]
      simp [seedsAsked]
  exact this g.seeds { g with seeds := [] }

theorem dialSeeds_off (g : Engine I A C S) (now : Nat) (hr : g.coord.ep.isRunning = false) : g.dialSeeds cfg env X T now = g := by
  unfold dialSeeds
  rw [if_pos (by simp [hr])]

/-- What a pump does with the seeds. -/
theorem pump_seeds {t0 : Nat} (hnew : Ep.tryNew cfg env t0 = .ok e0) {g : Engine I A C S}
    (hr : Reached cfg env X T E e0 cmp0 io0 handles listener g) (now : Nat) (datagrams : List (A × Bytes)) :
    let g' := g.pump cfg env X T E now datagrams
    seedsAsked g'.hist ++ g'.seeds = seedsAsked g.hist ++ g.seeds ∧
    (g.coord.ep.isRunning = true → g'.cut = false → g'.seeds = []) ∧
    (g.coord.ep.isRunning = false → seedsAsked g'.hist = seedsAsked g.hist) ∧
    g'.coord.ep.isRunning = g.coord.ep.isRunning := by
  intro g'
  have hn := nodup_moves hr Map.nodup_nil
  obtain ⟨g5, h5, h⟩ := pump_split (cfg := cfg) (env := env) (X := X) (T := T) (E := E) hn now datagrams
  obtain ⟨k1, k2⟩ := quiet_kept (h5.mono (fun _ => .inl))
  have r5 := hr.trans h5.plain
  have hrun := quiet_running hnew hr (h5.mono (fun _ => .inl))
  rcases h with ⟨hc, h⟩ | h
  · have e : g' = g5 := h
    rw [e]
    exact ⟨by rw [k1, k2], fun _ h => (by rw [hc] at h; cases h), fun _ => k1, hrun⟩
  · obtain ⟨g12, h, hp⟩ := h
    have h : EMovesP cfg env X T E (Quiet E) (g5.dialSeeds cfg env X T now) g' := by
      rcases hp with ⟨_, hp⟩ | hp
      · have e : g' = g12 := hp
        rw [e]; exact h.mono (fun _ => .inl)
      · have e : g' = _ := hp
        rw [e]; exact (h.mono (fun _ => .inl)).trans (drainTransmits_moves _ _)
    obtain ⟨m1, m2⟩ := quiet_kept h
    have r6 := r5.trans ((dialSeeds_moves (cfg := cfg) (env := env) (X := X) (T := T) (E := E) g5 now).mono (fun _ => mild_plain))
    have hrun6 := quiet_running hnew r6 h
    cases hc : g.coord.ep.isRunning with
    | true =>
      rw [hc] at hrun
      obtain ⟨d1, d2⟩ := dialSeeds_asked (cfg := cfg) (env := env) (X := X) (T := T) g5 now hrun
      refine ⟨by rw [m1, m2, d1, d2, k1, k2, List.append_nil], fun _ _ => m2.trans d2, fun h => (by cases h), ?_⟩
      refine hrun6.trans ?_
      have hd : ∀ (l : List A) (h : Engine I A C S), Reached cfg env X T E e0 cmp0 io0 handles listener h →
          h.coord.ep.isRunning = true →
          (l.foldl (fun g seed => (g.call cfg env X T (.startPushPull seed .join now)).1) h).coord.ep.isRunning = true := by
        intro l
        induction l with
        | nil => intro h _ h2; exact h2
        | cons a l ih =>
          intro h h1 h2
          rw [List.foldl_cons]
          have h1' := h1.trans (EMovesP.one (.call h (.startPushPull a .join now) trivial))
          refine ih _ h1' ?_
          rw [hstep_running hnew h1 h1' (.one (.startPushPull a .join now) rfl rfl) (fun op e now f h => by cases e; cases h)]
          exact h2
      unfold dialSeeds
      rw [if_neg (by simp [hrun])]
      refine hd _ _ ?_ hrun
      exact r5.trans (EMovesP.one (.reseed g5 [] (fun _ _ _ => trivial)))
    | false =>
      rw [hc] at hrun
      rw [dialSeeds_off g5 now hrun] at m1 m2 hrun6
      exact ⟨by rw [m1, m2, k1, k2], fun h => (by cases h), fun _ => m1.trans k1, hrun6.trans hrun⟩

/-- What a call other than a pump, `join` and `leave` does with the seeds: nothing. -/
theorem act_seeds {t0 : Nat} (hnew : Ep.tryNew cfg env t0 = .ok e0) {g : Engine I A C S}
    (hr : Reached cfg env X T E e0 cmp0 io0 handles listener g) (op : EOp I A C S)
    (h1 : ∀ now d, op ≠ .pump now d) (h2 : ∀ s, op ≠ .join s) (h3 : ∀ now, op ≠ .leave now) :
    let g' := (g.act cfg env X T E op).1
    seedsAsked g'.hist = seedsAsked g.hist ∧ g'.seeds = g.seeds ∧ g'.coord.ep.isRunning = g.coord.ep.isRunning := by
  intro g'
  have keep : ∀ (op' : XOp I A), Plain E op' → Idle op' →
      seedsAsked (g.call cfg env X T op').1.hist = seedsAsked g.hist ∧ (g.call cfg env X T op').1.seeds = g.seeds ∧
      (g.call cfg env X T op').1.coord.ep.isRunning = g.coord.ep.isRunning := by
    intro op' hp hi
    refine ⟨?_, rfl, ?_⟩
    · show seedsAsked (g.hist ++ [(op', _)]) = _
      rw [asked_append, asked_idle hi, List.append_nil]
    · exact hstep_running hnew hr (hr.trans (EMovesP.one (.call g op' hp))) (.one op' rfl rfl) (fun op e => by cases e; exact hi.2)
  have idle : ∀ {op : XOp I A}, (∀ a k now, op ≠ .startPushPull a k now) → (∀ now f, op ≠ .leave now f) → Idle op :=
    fun h1 h2 => ⟨h1, h2⟩
  have same : seedsAsked g.hist = seedsAsked g.hist ∧ g.seeds = g.seeds ∧ g.coord.ep.isRunning = g.coord.ep.isRunning :=
    ⟨rfl, rfl, rfl⟩
  cases op with
  | world io => exact same
  | pump now d => exact absurd rfl (h1 now d)
  | join s => exact absurd rfl (h2 s)
  | leave now => exact absurd rfl (h3 now)
  | sendReliable dst payload now => exact keep _ trivial (idle (by simp) (by simp))
  | send dst payload =>
    simp only [g', act]
    split
    · exact same
    · exact keep _ trivial (idle (by simp) (by simp))
  | sendMany dst payloads =>
    simp only [g', act]
    split
    · exact same
    · exact keep _ trivial (idle (by simp) (by simp))
  | ping node now => exact keep _ trivial (idle (by simp) (by simp))
  | start now => exact keep _ trivial (idle (by simp) (by simp))
  | injectAlive id peer now =>
    simp only [g', act]
    split
    · exact same
    · next hr =>
      exact keep (.direct (.packet peer (.alive ⟨1, [], ⟨id, peer⟩, .v1, .v1⟩) now))
        ⟨id, rfl, by simpa using hr⟩ (idle (by simp) (by simp))
  | queueUser rank data => exact keep _ trivial (idle (by simp) (by simp))
  | updateMeta m => exact keep _ trivial (idle (by simp) (by simp))
  | setLocalState b => exact keep _ trivial (idle (by simp) (by simp))
  | setAckPayload b => exact keep _ trivial (idle (by simp) (by simp))
  | setCompression cmp =>
    simp only [g', act]
    split
    · exact same
    · exact keep _ trivial (idle (by simp) (by simp))
  | setEncryption ring =>
    simp only [g', act]
    split
    · exact same
    · split
      · exact same
      · exact keep _ trivial (idle (by simp) (by simp))
  | pollEvent =>
    have hm : EMovesP cfg env X T E (Quiet E) g g' := .one (.event g)
    obtain ⟨k1, k2⟩ := quiet_kept hm
    exact ⟨k1, k2, quiet_running hnew hr hm⟩

omit [DecidableEq I] [DecidableEq A] [DecidableEq C] in
theorem given_cons (r : A → Bool) (op : EOp I A C S) (ops : List (EOp I A C S)) :
    seedsGiven r (op :: ops) = seedsGiven r [op] ++ seedsGiven r ops := by simp [seedsGiven]

/-- One call other than `leave`, on a running engine. -/
theorem step_seeds {t0 : Nat} (hnew : Ep.tryNew cfg env t0 = .ok e0) {g : Engine I A C S}
    (hr : Reached cfg env X T E e0 cmp0 io0 handles listener g) (op : EOp I A C S) (h3 : ∀ now, op ≠ .leave now)
    (hrun : g.coord.ep.isRunning = true) :
    let g' := (g.step cfg env X T E op).1
    g'.cut = false → seedsAsked g'.hist ++ g'.seeds = seedsAsked g.hist ++ g.seeds ++ seedsGiven E.routable [op] ∧
      g'.coord.ep.isRunning = true := by
  intro g' hc
  have hcut : g.cut = false := by
    cases h : g.cut with
    | false => rfl
    | true => simp only [g', step, h] at hc; exact hc.symm.trans h |>.symm
  have he : g' = (g.act cfg env X T E op).1 := by simp [g', step, hcut]
  clear_value g'
  subst he
  by_cases h1 : ∃ now d, op = .pump now d
  · obtain ⟨now, d, rfl⟩ := h1
    obtain ⟨k1, _, _, k4⟩ := pump_seeds hnew hr now d
    exact ⟨by simpa [act, seedsGiven] using k1, by simpa [act, hrun] using k4⟩
  by_cases h2 : ∃ s, op = .join s
  · obtain ⟨s, rfl⟩ := h2
    simp only [act, hrun]
    exact ⟨by simp [seedsGiven], hrun⟩
  obtain ⟨k1, k2, k3⟩ := act_seeds hnew hr op (fun now d h => h1 ⟨now, d, h⟩) (fun s h => h2 ⟨s, h⟩) h3
  refine ⟨?_, k3.trans hrun⟩
  rw [k1, k2]
  cases op with
  | join s => exact absurd ⟨s, rfl⟩ h2
  | _ => simp [seedsGiven]

/-- One call, on an engine that has left. -/
theorem step_left {t0 : Nat} (hnew : Ep.tryNew cfg env t0 = .ok e0) {g : Engine I A C S}
    (hr : Reached cfg env X T E e0 cmp0 io0 handles listener g) (op : EOp I A C S)
    (hrun : g.coord.ep.isRunning = false) :
    let g' := (g.step cfg env X T E op).1
    seedsAsked g'.hist = seedsAsked g.hist ∧ g'.coord.ep.isRunning = false := by
  intro g'
  cases hcut : g.cut with
  | true => simp only [g', step, hcut]; exact ⟨rfl, hrun⟩
  | false =>
  have he : g' = (g.act cfg env X T E op).1 := by simp [g', step, hcut]
  clear_value g'
  subst he
  by_cases h1 : ∃ now d, op = .pump now d
  · obtain ⟨now, d, rfl⟩ := h1
    obtain ⟨_, _, k3, k4⟩ := pump_seeds hnew hr now d
    exact ⟨k3 hrun, k4.trans hrun⟩
  by_cases h2 : ∃ s, op = .join s
  · obtain ⟨s, rfl⟩ := h2
    simp only [act, hrun]
    exact ⟨rfl, hrun⟩
  by_cases h3 : ∃ now, op = .leave now
  · obtain ⟨now, rfl⟩ := h3
    refine ⟨?_, step_stopped (X := X) (T := T) hnew (shape hr) (.leave now none) hrun⟩
    show seedsAsked (g.hist ++ [(.leave now none, _)]) = _
    rw [asked_append]
    simp [seedsAsked]
  obtain ⟨k1, k2, k3⟩ := act_seeds hnew hr op (fun now d h => h1 ⟨now, d, h⟩) (fun s h => h2 ⟨s, h⟩) (fun now h => h3 ⟨now, h⟩)
  exact ⟨k1, k3.trans hrun⟩

omit [DecidableEq I] [DecidableEq A] in
theorem cut_run [DecidableEq I] [DecidableEq A] (ops : List (EOp I A C S)) (g : Engine I A C S) (h : g.cut = true) :
    g.run cfg env X T E ops = g := by
  induction ops with
  | nil => rfl
  | cons op ops ih =>
    have : (g.step cfg env X T E op).1 = g := by simp [step, h]
    show (g.step cfg env X T E op).1.run cfg env X T E ops = g
    rw [this, ih]

/-- A history without `leave`. -/
theorem run_seeds {t0 : Nat} (hnew : Ep.tryNew cfg env t0 = .ok e0) (ops : List (EOp I A C S)) : ∀ {g : Engine I A C S},
    Reached cfg env X T E e0 cmp0 io0 handles listener g → g.coord.ep.isRunning = true →
    (∀ now, .leave now ∉ ops) → (g.run cfg env X T E ops).cut = false →
    seedsAsked (g.run cfg env X T E ops).hist ++ (g.run cfg env X T E ops).seeds =
      seedsAsked g.hist ++ g.seeds ++ seedsGiven E.routable ops ∧
    (g.run cfg env X T E ops).coord.ep.isRunning = true := by
  induction ops with
  | nil => intro g _ hrun _ _; exact ⟨by simp [run, seedsGiven], hrun⟩
  | cons op ops ih =>
    intro g hr hrun hl hc
    have hr' := hr.trans (step_moves (nodup_moves hr Map.nodup_nil) op)
    have hc' : (g.step cfg env X T E op).1.cut = false := by
      cases h : (g.step cfg env X T E op).1.cut with
      | false => rfl
      | true =>
        have := cut_run (cfg := cfg) (env := env) (X := X) (T := T) (E := E) ops _ h
        change ((g.step cfg env X T E op).1.run cfg env X T E ops).cut = false at hc
        rw [this, h] at hc; cases hc
    obtain ⟨k1, k2⟩ := step_seeds hnew hr op (fun now h => hl now (by rw [h]; exact List.mem_cons_self ..)) hrun hc'
    obtain ⟨m1, m2⟩ := ih hr' k2 (fun now h => hl now (List.mem_cons_of_mem _ h)) hc
    refine ⟨?_, m2⟩
    rw [given_cons, ← List.append_assoc, ← k1]
    exact m1

/-- A history after `leave`. -/
theorem run_left {t0 : Nat} (hnew : Ep.tryNew cfg env t0 = .ok e0) (ops : List (EOp I A C S)) : ∀ {g : Engine I A C S},
    Reached cfg env X T E e0 cmp0 io0 handles listener g → g.coord.ep.isRunning = false →
    seedsAsked (g.run cfg env X T E ops).hist = seedsAsked g.hist := by
  induction ops with
  | nil => intro g _ _; rfl
  | cons op ops ih =>
    intro g hr hrun
    obtain ⟨k1, k2⟩ := step_left hnew hr op hrun
    exact (ih (hr.trans (step_moves (nodup_moves hr Map.nodup_nil) op)) k2).trans k1

end Verif.Engine
