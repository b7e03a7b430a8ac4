import Verif.Proof.EngineEnd
import Verif.Proof.CoordIngress
/-
Where what the engine tells its coordinator comes from, and which sends it remembers.
-/
namespace Verif.Engine
open Verif Coord Spec
variable {I A C S : Type} [DecidableEq I] [DecidableEq A] [DecidableEq C]
variable {cfg : Cfg I A} {env : Env I A} {X : XCfg} {T : TEnv} {E : EEnv S C A}

/-- Calls with a source have one. -/
def Sourced (cfg : Cfg I A) (env : Env I A) (X : XCfg) (T : TEnv) (E : EEnv S C A) (P : XOp I A → Prop)
    (g : Engine I A C S) : XOp I A → Prop
  | .gossip src _ _ => E.blocked src = false
  | .direct (.packet src m now) => Source cfg env X T g src m ∨ P (.direct (.packet src m now))
  | _ => True

/-- How the memory of sends changes with a call. -/
def sidsAfter (g : Engine I A C S) (e : XOp I A × XOut I A) : Map Nat Nat :=
  match e.2 with
  | .action (some (.connect y _ sid)) => g.sids.insert y sid
  | .event (some (.external (some r))) => g.sids.erase r.exchange
  | _ => g.sids

theorem plain_out {c : Coord I A} {op : XOp I A} (h : Plain E op) :
    (∀ a, (c.step cfg env X T op).2 ≠ .action a) ∧ (∀ ev, (c.step cfg env X T op).2 ≠ .event ev) := by
  cases op with
  | startPushPull => exact ⟨fun a h => (by cases h), fun a h => (by cases h)⟩
  | startUserMessage => exact ⟨fun a h => (by cases h), fun a h => (by cases h)⟩
  | timeout => exact ⟨fun a h => (by cases h), fun a h => (by cases h)⟩
  | gossip => exact ⟨fun a h => (by cases h), fun a h => (by cases h)⟩
  | leave => exact ⟨fun a h => (by cases h), fun a h => (by cases h)⟩
  | setEncryption => exact ⟨fun a h => (by cases h), fun a h => (by cases h)⟩
  | setCompression => exact ⟨fun a h => (by cases h), fun a h => (by cases h)⟩
  | pollIngress => exact ⟨fun a h => (by cases h), fun a h => (by cases h)⟩
  | direct d => exact ⟨fun a h => (by cases h), fun a h => (by cases h)⟩
  | _ => cases h

theorem sids_quiet {g : Engine I A C S} {e : XOp I A × XOut I A} (h1 : ∀ a, e.2 ≠ .action a) (h2 : ∀ ev, e.2 ≠ .event ev) :
    sidsAfter g e = g.sids := by
  unfold sidsAfter
  split
  · next h => exact absurd h (h1 _)
  · next h => exact absurd h (h2 _)
  · rfl

theorem teardown_sids (g : Engine I A C S) (x now : Nat) : (g.teardown E x now).sids = g.sids := by
  unfold teardown
  split
  · rfl
  · split
    · rfl
    · split
      · rfl
      · split
        · rfl
        · split
          · rfl
          · split <;> rfl

omit [DecidableEq I] [DecidableEq A] [DecidableEq C] in
theorem abortExchange_sids (g : Engine I A C S) (x : Nat) : (g.abortExchange E x).sids = g.sids := by
  unfold abortExchange
  split
  · rfl
  · simp only []
    split <;> rfl

/-- The call of a move: where it comes from, and what is remembered of it. -/
theorem move_op {P : XOp I A → Prop} (hP : ∀ op, P op → Plain E op) {g g' : Engine I A C S}
    (hm : EMoveP cfg env X T E P g g') :
    (g'.coord = g.coord ∧ g'.hist = g.hist ∧ g'.sids = g.sids) ∨
    ∃ op, g'.hist = g.hist ++ [(op, (g.coord.step cfg env X T op).2)] ∧
      g'.coord = (g.coord.step cfg env X T op).1 ∧ (P op ∨ ∀ r, op ≠ .setEncryption r) ∧ Sourced cfg env X T E P g op ∧
      g'.sids = sidsAfter g (op, (g.coord.step cfg env X T op).2) := by
  cases hm with
  | aside s => exact .inl ⟨s.coord, s.hist, s.sids⟩
  | reseed => exact .inl ⟨rfl, rfl, rfl⟩
  | call op hp =>
    have hp' := hP _ hp
    refine .inr ⟨op, rfl, rfl, .inl hp, ?_, (sids_quiet (plain_out hp').1 (plain_out hp').2).symm⟩
    cases op with
    | gossip => exact hp'
    | direct d => cases d <;> first | trivial | exact .inr hp
    | _ => trivial
  | packet src m now hs => exact .inr ⟨_, rfl, rfl, .inr (fun _ => by simp), .inl hs, rfl⟩
  | event =>
    refine .inr ⟨.pollEvent, (event_same g).2.1, (event_same g).1, .inr (fun _ => by simp), trivial, ?_⟩
    simp only [act]
    split
    · next g1 r h =>
      have h2 : (g.coord.step cfg env X T .pollEvent).2 = .event (some (.external (some r))) := congrArg Prod.snd h
      have h1 : (g.call cfg env X T .pollEvent).1 = g1 := by rw [h]
      rw [h2, ← h1]; rfl
    · next g1 ev hne h =>
      have h2 : (g.coord.step cfg env X T .pollEvent).2 = .event ev := congrArg Prod.snd h
      have h1 : (g.call cfg env X T .pollEvent).1 = g1 := by rw [h]
      rw [h2, ← h1]
      unfold sidsAfter
      split
      · next h3 => cases h3
      · next r h3 => cases h3; exact absurd rfl (hne r)
      · rfl
    · next g1 o hn1 hn2 h =>
      have h2 : (g.coord.step cfg env X T .pollEvent).2 = o := congrArg Prod.snd h
      simp only [Coord.step] at h2
      exact absurd h2.symm (hn2 _)
  | datagram => exact .inl ⟨rfl, rfl, rfl⟩
  | listen => exact .inl ⟨rfl, rfl, rfl⟩
  | refuse => exact .inl ⟨rfl, rfl, rfl⟩
  | decline c peer now h1 h2 h3 h4 =>
    refine .inr ⟨_, rfl, rfl, .inr (fun _ => by simp), trivial, ?_⟩
    have h4 : (g.coord.step cfg env X T (.accept peer now)).2 = .accepted none := h4
    rw [h4]; rfl
  | accept c peer x now h1 h2 h3 h4 =>
    refine .inr ⟨_, rfl, rfl, .inr (fun _ => by simp), trivial, ?_⟩
    have h4 : (g.coord.step cfg env X T (.accept peer now)).2 = .accepted (some x) := h4
    rw [h4]; rfl
  | connect x peer sid h =>
    refine .inr ⟨_, rfl, rfl, .inr (fun _ => by simp), trivial, ?_⟩
    have h : (g.coord.step cfg env X T .pollAction).2 = .action (some (.connect x peer sid)) := h
    rw [h]; rfl
  | dialOk => exact .inl ⟨rfl, rfl, rfl⟩
  | dialRefused => exact .inr ⟨_, rfl, rfl, .inr (fun _ => by simp), trivial, rfl⟩
  | dialError => exact .inr ⟨_, rfl, rfl, .inr (fun _ => by simp), trivial, rfl⟩
  | shutdown x h =>
    refine .inr ⟨_, rfl, rfl, .inr (fun _ => by simp), trivial, ?_⟩
    have h : (g.coord.step cfg env X T .pollAction).2 = .action (some (.down .shutdown x)) := h
    rw [h]; rfl
  | close x now h =>
    refine .inr ⟨.pollAction, (teardown_coord _ x now).2, (teardown_coord _ x now).1, .inr (fun _ => by simp), trivial, ?_⟩
    have h : (g.coord.step cfg env X T .pollAction).2 = .action (some (.down .close x)) := h
    rw [h, teardown_sids]; rfl
  | abort x h =>
    refine .inr ⟨.pollAction, (abortExchange_coord _ x).2, (abortExchange_coord _ x).1, .inr (fun _ => by simp), trivial, ?_⟩
    have h : (g.coord.step cfg env X T .pollAction).2 = .action (some (.down .abort x)) := h
    rw [h, abortExchange_sids]; rfl
  | actionNone h =>
    refine .inr ⟨_, rfl, rfl, .inr (fun _ => by simp), trivial, ?_⟩
    have h : (g.coord.step cfg env X T .pollAction).2 = .action none := h
    rw [h]; rfl
  | fetch => exact .inr ⟨_, rfl, rfl, .inr (fun _ => by simp), trivial, rfl⟩
  | lost => exact .inr ⟨_, rfl, rfl, .inr (fun _ => by simp), trivial, rfl⟩
  | fetchNone => exact .inr ⟨_, rfl, rfl, .inr (fun _ => by simp), trivial, rfl⟩
  | read => exact .inr ⟨_, rfl, rfl, .inr (fun _ => by simp), trivial, rfl⟩
  | eof => exact .inr ⟨_, rfl, rfl, .inr (fun _ => by simp), trivial, rfl⟩
  | write => exact .inl ⟨rfl, rfl, rfl⟩
  | promote => exact .inl ⟨rfl, rfl, rfl⟩
  | shut => exact .inl ⟨rfl, rfl, rfl⟩
  | settle io now x k o => exact .inl ⟨(settle_coord g io now _).1, (settle_coord g io now _).2, by unfold settle; split <;> rfl⟩
  | reap c now =>
    refine .inl ⟨(reapOne_coord g now c).1, (reapOne_coord g now c).2, ?_⟩
    unfold reapOne
    split
    · rfl
    · split
      · rfl
      · split <;> rfl

variable {e0 : Ep I A} {cmp0 : CmpOptions} {io0 : S} {handles : List C} {listener : Option C}

omit [DecidableEq I] [DecidableEq A] in
theorem owed_snoc (x : Nat) (h : List (XOp I A × XOut I A)) (g : Engine I A C S) (e : XOp I A × XOut I A)
    (hg : g.sids.get? x = owed x h) : (sidsAfter g e).get? x = owed x (h ++ [e]) := by
  unfold owed at hg ⊢
  rw [List.foldl_append, List.foldl_cons, List.foldl_nil, ← hg]
  unfold sidsAfter owedStep
  obtain ⟨op, o⟩ := e
  simp only []
  split
  · rw [Map.get?_insert]
  · rw [Map.get?_erase]
  · next h1 h2 =>
    split
    · exact absurd rfl (h1 _ _ _)
    · exact absurd rfl (h2 _)
    · rfl

/-- What the engine remembers of sends. -/
theorem sids_owed {g : Engine I A C S} (hr : Reached cfg env X T E e0 cmp0 io0 handles listener g) (x : Nat) :
    g.sids.get? x = owed x g.hist := by
  induction hr with
  | refl => rfl
  | snoc _ hm ih =>
    rcases move_op (fun _ h => h) hm with ⟨_, h2, h3⟩ | ⟨op, h1, _, _, _, h3⟩
    · rw [h2, h3]; exact ih
    · rw [h1, h3]; exact owed_snoc x _ _ _ ih

/-- The calls with a source, in a history. -/
theorem hist_sourced {P : XOp I A → Prop} (hP : ∀ op, P op → Plain E op) {g : Engine I A C S}
    (hr : EMovesP cfg env X T E P (base e0 cmp0 io0 handles listener) g)
    {h1 : List (XOp I A × XOut I A)} {op : XOp I A} {o : XOut I A} {h2 : List (XOp I A × XOut I A)}
    (hh : g.hist = h1 ++ (op, o) :: h2) :
    ∃ g1, EMovesP cfg env X T E P (base e0 cmp0 io0 handles listener) g1 ∧ g1.hist = h1 ∧ Sourced cfg env X T E P g1 op ∧
      o = (g1.coord.step cfg env X T op).2 := by
  induction hr generalizing h2 with
  | refl => cases h1 <;> cases hh
  | @snoc b c hr hm ih =>
    rcases move_op hP hm with ⟨_, e2, _⟩ | ⟨op', e1, _, _, e2, _⟩
    · exact ih (e2 ▸ hh)
    · rw [hh] at e1
      rcases List.eq_nil_or_concat h2 with e | ⟨l, a, e⟩
      · subst e
        have := List.append_inj_right' e1 rfl
        have hl := List.append_inj_left' e1 rfl
        cases this
        exact ⟨b, hr, hl.symm, e2, rfl⟩
      · subst e
        rw [List.concat_eq_append, ← List.cons_append, ← List.append_assoc] at e1
        exact ih (List.append_inj_left' e1 rfl).symm

/-! ### When the engine wakes -/

theorem minOpt_le {a b : Option Nat} {d : Nat} (h : a = some d ∨ b = some d) : ∃ w, Ep.minOpt a b = some w ∧ w ≤ d := by
  unfold Ep.minOpt
  rcases h with h | h <;> subst h
  · cases b with
    | none => exact ⟨d, rfl, Nat.le_refl _⟩
    | some b => exact ⟨min d b, rfl, Nat.min_le_left ..⟩
  · cases a with
    | none => exact ⟨d, rfl, Nat.le_refl _⟩
    | some a => exact ⟨min a d, rfl, Nat.min_le_right ..⟩

theorem minFold_le {α : Type} (f : α → Option Nat) (l : List α) (o : Option Nat) {d : Nat}
    (h : (∃ w, o = some w ∧ w ≤ d) ∨ ∃ a ∈ l, f a = some d) :
    ∃ w, l.foldl (fun acc e => Ep.minOpt acc (f e)) o = some w ∧ w ≤ d := by
  induction l generalizing o with
  | nil =>
    rcases h with h | ⟨a, h, _⟩
    · exact h
    · cases h
  | cons a l ih =>
    rw [List.foldl_cons]
    refine ih _ ?_
    rcases h with ⟨w, h1, h2⟩ | ⟨b, hb, h2⟩
    · left
      obtain ⟨w', h3, h4⟩ := minOpt_le (a := o) (b := f a) (.inl h1)
      exact ⟨w', h3, Nat.le_trans h4 h2⟩
    · rcases List.mem_cons.1 hb with e | hb
      · subst e; exact .inl (minOpt_le (.inr h2))
      · exact .inr ⟨b, hb, h2⟩

theorem minOpt_mem {a b : Option Nat} {w : Nat} (h : Ep.minOpt a b = some w) : a = some w ∨ b = some w := by
  unfold Ep.minOpt at h
  cases a with
  | none => exact .inr (by simpa using h)
  | some a =>
    cases b with
    | none => exact .inl (by simpa using h)
    | some b =>
      simp only [Option.some.injEq] at h ⊢
      omega

theorem minFold_mem {α : Type} (f : α → Option Nat) (l : List α) (o : Option Nat) {w : Nat}
    (h : l.foldl (fun acc e => Ep.minOpt acc (f e)) o = some w) : o = some w ∨ ∃ a ∈ l, f a = some w := by
  induction l generalizing o with
  | nil => exact .inl h
  | cons a l ih =>
    rw [List.foldl_cons] at h
    rcases ih _ h with h | ⟨b, hb, h⟩
    · rcases minOpt_mem h with h | h
      · exact .inl h
      · exact .inr ⟨a, List.mem_cons_self .., h⟩
    · exact .inr ⟨b, List.mem_cons_of_mem _ hb, h⟩

/-- The engine wakes at the first of its instants. -/
theorem wake_first (g : Engine I A C S) : (∀ d ∈ deadlines g, ∃ w, g.wake = some w ∧ w ≤ d) ∧
    ∀ w, g.wake = some w → w ∈ deadlines g := by
  unfold wake deadlines
  refine ⟨fun d hd => ?_, fun w hw => ?_⟩
  · refine minFold_le (fun e : Nat × Wired A C => e.2.closeDeadline) _ _ ?_
    rcases List.mem_append.1 hd with hd | hd
    · left
      refine minFold_le (fun e : C × Nat => some e.2) _ _ ?_
      rcases List.mem_append.1 hd with hd | hd
      · exact .inl ⟨d, Option.mem_toList.1 hd, Nat.le_refl _⟩
      · obtain ⟨e, h1, h2⟩ := List.mem_map.1 hd
        exact .inr ⟨e, h1, by rw [h2]⟩
    · obtain ⟨e, h1, h2⟩ := List.mem_filterMap.1 hd
      exact .inr ⟨e, h1, h2⟩
  · rcases minFold_mem (fun e : Nat × Wired A C => e.2.closeDeadline) _ _ hw with h | ⟨e, h1, h2⟩
    · rcases minFold_mem (fun e : C × Nat => some e.2) _ _ h with h | ⟨e, h1, h2⟩
      · exact List.mem_append_left _ (List.mem_append_left _ (Option.mem_toList.2 h))
      · refine List.mem_append_left _ (List.mem_append_right _ (List.mem_map.2 ⟨e, h1, ?_⟩))
        simpa using h2
    · exact List.mem_append_right _ (List.mem_filterMap.2 ⟨e, h1, h2⟩)

end Verif.Engine
