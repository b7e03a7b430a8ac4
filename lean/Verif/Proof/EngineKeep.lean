import Verif.Proof.EnginePipe
/-
More of what one exchange goes through in the engine: its deadline while it drains, the half-close it was asked for,
and that it has its connection.
-/
namespace Verif
namespace Engine
open Verif Coord Spec
variable {I A C S : Type}

/-- A connection has a deadline exactly while it drains, and a half-close that was asked for is pending or done. -/
structure Pact (v : EV A C) : Prop where
  dl : ∀ k, v.k = some k → (k.state = .closing ↔ k.closeDeadline ≠ none)
  ask : ∀ k, v.k = some k → .shutdown ∈ downs v.gv → k.state ≠ .closing → k.finPending = true ∨ k.state = .halfClosed

theorem Pact.none : Pact ({} : EV A C) := by constructor <;> simp

theorem Pact.step {v v' : EV A C} (h : Pact v) (hs : EStep v v') : Pact v' := by
  cases hs with
  | refl => exact h
  | accept c peer => constructor <;> simp [downs]
  | connect peer sid => constructor <;> simp [downs]
  | dialOk _ k c hk hst =>
    have h1 := h.dl k hk
    have h2 := h.ask k hk
    rw [hst] at h1 h2
    refine ⟨?_, ?_⟩ <;> rintro k' ⟨⟩
    · simpa using h1
    · intro hd _; simpa using h2 hd (by simp)
  | dialGone _ k hk hst => exact ⟨fun k h => (by cases h), fun k h => (by cases h)⟩
  | downNone _ t hk =>
    have hno : ∀ k, v.k = some k → False := fun k h => by rw [hk] at h; cases h
    exact ⟨fun k h => (hno k h).elim, fun k h => (hno k h).elim⟩
  | shutdown _ k hk =>
    refine ⟨?_, ?_⟩ <;> rintro k' ⟨⟩
    · exact h.dl k hk
    · intro _ _; exact .inl rfl
  | closing _ k mark deadline hk hh hs =>
    refine ⟨?_, ?_⟩ <;> rintro k' ⟨⟩
    · simp
    · intro _ hc; exact absurd rfl hc
  | torn _ k t hk ht => exact ⟨fun k h => (by cases h), fun k h => (by cases h)⟩
  | tornShut _ k hk hz => exact ⟨fun k h => (by cases h), fun k h => (by cases h)⟩
  | wound _ k hk hc hz => exact ⟨fun k h => (by cases h), fun k h => (by cases h)⟩
  | dropped _ k hk hc => exact ⟨fun k h => (by cases h), fun k h => (by cases h)⟩
  | fetch _ k b hk =>
    refine ⟨?_, ?_⟩ <;> rintro k' ⟨⟩
    · exact h.dl k hk
    · intro hd; exact h.ask k hk (by simpa [downs_append, downs] using hd)
  | lost _ b hk =>
    have hno : ∀ k, v.k = some k → False := fun k h => by rw [hk] at h; cases h
    exact ⟨fun k h => (hno k h).elim, fun k h => (hno k h).elim⟩
  | read _ k b hk => exact ⟨h.dl, h.ask⟩
  | eof _ k hk he =>
    refine ⟨?_, ?_⟩ <;> rintro k' ⟨⟩
    · exact h.dl k hk
    · exact h.ask k hk
  | write _ k out w hk ho hw =>
    refine ⟨?_, ?_⟩ <;> rintro k' ⟨⟩
    · exact h.dl k hk
    · exact h.ask k hk
  | promote _ k hk hst =>
    have h1 := h.dl k hk
    have h2 := h.ask k hk
    rw [hst] at h1 h2
    refine ⟨?_, ?_⟩ <;> rintro k' ⟨⟩
    · simpa using h1
    · intro hd _; simpa using h2 hd (by simp)
  | shut _ k hk hf hst ho =>
    have h1 := h.dl k hk
    rw [hst] at h1
    refine ⟨?_, ?_⟩ <;> rintro k' ⟨⟩
    · simpa using h1
    · intro _ _; exact .inr rfl
  | progress _ k mark deadline hk hst hm =>
    refine ⟨?_, ?_⟩ <;> rintro k' ⟨⟩
    · simpa using hst
    · intro _ hc; exact absurd hst hc

/-- A connection that drains goes on under the same deadline unless less is left to deliver, or is gone. -/
def Drain (k k' : Option (Wired A C)) : Prop :=
  k' = none ∨ ∃ a b, k = some a ∧ k' = some b ∧ a.state = .closing ∧ b.state = .closing ∧
    ((b.drainMark = a.drainMark ∧ b.closeDeadline = a.closeDeadline) ∨ b.drainMark < a.drainMark)

theorem Drain.rfl' {k : Option (Wired A C)} (h : ∀ a, k = some a → a.state = .closing) : Drain k k := by
  cases k with
  | none => exact .inl rfl
  | some a => exact .inr ⟨a, a, rfl, rfl, h a rfl, h a rfl, .inl ⟨rfl, rfl⟩⟩

theorem Drain.trans {k1 k2 k3 : Option (Wired A C)} (h1 : Drain k1 k2) (h2 : Drain k2 k3) : Drain k1 k3 := by
  rcases h2 with h2 | ⟨b, c, e1, e2, h3, h4, h5⟩
  · exact .inl h2
  · rcases h1 with h1 | ⟨a, b', e3, e4, h6, h7, h8⟩
    · rw [h1] at e1; cases e1
    · rw [e4] at e1; cases e1
      refine .inr ⟨a, c, e3, e2, h6, h4, ?_⟩
      rcases h5 with ⟨h5, h5'⟩ | h5
      · rcases h8 with ⟨h8, h8'⟩ | h8
        · exact .inl ⟨h5.trans h8, h5'.trans h8'⟩
        · exact .inr (by omega)
      · rcases h8 with ⟨h8, h8'⟩ | h8
        · exact .inr (by omega)
        · exact .inr (by omega)

theorem EStep.drain {v v' : EV A C} (hs : EStep v v') (hp : Pipe v) (hc : .close ∈ downs v.gv)
    (hn : v'.gv ≠ v.gv ++ [.down .close]) : Drain v.k v'.k := by
  have hcl : ∀ a, v.k = some a → a.state = .closing := fun a ha =>
    Decidable.byContradiction (fun h => (hp.calm a ha h).1 hc)
  have keep : ∀ k k', v.k = some k → v'.k = some k' → k'.state = k.state → k'.drainMark = k.drainMark →
      k'.closeDeadline = k.closeDeadline → Drain v.k v'.k := by
    intro k k' hk hk' h1 h2 h3
    exact .inr ⟨k, k', hk, hk', hcl k hk, h1.trans (hcl k hk), .inl ⟨h2, h3⟩⟩
  cases hs with
  | refl => exact .rfl' hcl
  | accept c peer => simp [downs] at hc
  | connect peer sid => simp [downs] at hc
  | dialOk _ k c hk hst => exact absurd (hcl k hk) (by rw [hst]; simp)
  | dialGone _ k hk hst => exact .inl rfl
  | downNone _ t hk => exact .inl hk
  | shutdown _ k hk => exact keep k _ hk rfl rfl rfl rfl
  | closing _ k mark deadline hk hh hs => exact absurd rfl hn
  | torn _ k t hk ht => exact .inl rfl
  | tornShut _ k hk hz => exact .inl rfl
  | wound _ k hk hc hz => exact .inl rfl
  | dropped _ k hk hc => exact .inl rfl
  | fetch _ k b hk => exact keep k _ hk rfl rfl rfl rfl
  | lost _ b hk => exact .inl hk
  | read _ k b hk => exact .rfl' hcl
  | eof _ k hk he => exact keep k _ hk rfl rfl rfl rfl
  | write _ k out w hk ho hw => exact keep k _ hk rfl rfl rfl rfl
  | promote _ k hk hst => exact absurd (hcl k hk) (by rw [hst]; simp)
  | shut _ k hk hf hst ho => exact absurd (hcl k hk) (by rw [hst]; simp)
  | progress _ k mark deadline hk hst hm => exact .inr ⟨k, _, hk, rfl, hst, hst, .inr hm⟩

section
variable [DecidableEq I] [DecidableEq A] [DecidableEq C]
variable {cfg : Cfg I A} {env : Env I A} {X : XCfg} {T : TEnv} {E : EEnv S C A}
variable {e0 : Ep I A} {cmp0 : CmpOptions} {io0 : S} {handles : List C} {listener : Option C}

theorem pact {t0 : Nat} (hnew : Ep.tryNew cfg env t0 = .ok e0) {g : Engine I A C S}
    (hr : Reached cfg env X T E e0 cmp0 io0 handles listener g) (x : Nat) : Pact (ev g x) := by
  induction hr with
  | refl => exact Pact.none
  | @snoc b c hr hm ih => exact ih.step (ev_step hnew hr hm (pipe hnew hr x))

/-- At most one close is handed out. -/
theorem close_once {t0 : Nat} (hnew : Ep.tryNew cfg env t0 = .ok e0) {g : Engine I A C S}
    (hr : Reached cfg env X T E e0 cmp0 io0 handles listener g) (x : Nat) :
    (downs (given g x)).count .close ≤ 1 := by
  obtain ⟨half, full, e1, ⟨e2, e3⟩, _⟩ := (drive hnew hr x).tear
  have : (downs (given g x)).count .close ≤ (half ++ full).count .close := by
    rw [← e1, List.count_append]; omega
  refine Nat.le_trans this ?_
  rw [List.count_append]
  rcases e2 with e2 | e2 <;> rcases e3 with e3 | e3 | e3 | e3 <;> rw [e2, e3] <;> decide

theorem drain_moves {t0 : Nat} (hnew : Ep.tryNew cfg env t0 = .ok e0) {g g' : Engine I A C S}
    (hr : Reached cfg env X T E e0 cmp0 io0 handles listener g) (hm : EMoves cfg env X T E g g') {x : Nat}
    (hc : .close ∈ downs (given g x)) :
    .close ∈ downs (given g' x) ∧ Drain (g.conns.get? x) (g'.conns.get? x) := by
  induction hm with
  | refl =>
    refine ⟨hc, .rfl' (fun a ha => ?_)⟩
    exact Decidable.byContradiction (fun h => ((pipe hnew hr x).calm a ha h).1 hc)
  | @snoc b c h1 h2 ih =>
    have hrb := hr.trans h1
    have hrc : Reached cfg env X T E e0 cmp0 io0 handles listener c := .snoc hrb h2
    have hst := ev_step hnew hrb h2 (pipe hnew hrb x)
    have hpre : ∃ l, given c x = given b x ++ l := by
      obtain ⟨o, ho⟩ := move_hist h2
      cases ho with
      | none _ e => rw [given_none e]; exact ⟨[], (List.append_nil _).symm⟩
      | one op _ e => rw [given_one e]; exact ⟨_, rfl⟩
    obtain ⟨l, hl⟩ := hpre
    refine ⟨by rw [hl, downs_append]; exact List.mem_append_left _ ih.1, ih.2.trans (hst.drain (pipe hnew hrb x) ih.1 ?_)⟩
    intro e
    have e : given c x = given b x ++ [.down .close] := e
    have := close_once hnew hrc x
    rw [e, downs_append, List.count_append] at this
    have h3 : 1 ≤ (downs (given b x)).count .close := List.one_le_count_iff.2 ih.1
    have h4 : (downs [(XEmit.down .close : XEmit A)]).count .close = 1 := by simp [downs]
    omega

/-! ### An exchange has its connection -/

/-- An exchange whose connection was asked for or accepted has it, or was taken down, or its dial failed. -/
def Held (s : Gear A C S) (gv : List (XEmit A)) (told : Prop) (x : Nat) : Prop :=
  ((∃ peer sid, .connect peer sid ∈ gv) ∨ ∃ e ∈ s.log, ∃ c peer, e.2 = .accept x c peer) →
    s.conns.get? x ≠ none ∨ .close ∈ downs gv ∨ .abort ∈ downs gv ∨ told

omit [DecidableEq I] [DecidableEq A] [DecidableEq C] in
theorem Held.of {s s' : Gear A C S} {gv gv' : List (XEmit A)} {told told' : Prop} {x : Nat} (h : Held s gv told x)
    (es : List (S × Act A C)) (hl : s'.log = s.log ++ es)
    (he : ∀ e ∈ es, ∀ c peer, e.2 ≠ .accept x c peer) (l : List (XEmit A)) (hgv : gv' = gv ++ l)
    (hlc : ∀ peer sid, .connect peer sid ∉ l) (ht : told → told')
    (hc : s'.conns.get? x ≠ none ∨ .close ∈ downs gv' ∨ .abort ∈ downs gv' ∨ told' ∨
      s'.conns.get? x = s.conns.get? x) : Held s' gv' told' x := by
  intro hh
  rcases hc with hc | hc | hc | hc | hc
  · exact .inl hc
  · exact .inr (.inl hc)
  · exact .inr (.inr (.inl hc))
  · exact .inr (.inr (.inr hc))
  · have : (∃ peer sid, .connect peer sid ∈ gv) ∨ ∃ e ∈ s.log, ∃ c peer, e.2 = .accept x c peer := by
      rcases hh with ⟨p, sid, hm⟩ | ⟨e, hm, c, p, h⟩
      · rw [hgv] at hm
        rcases List.mem_append.1 hm with hm | hm
        · exact .inl ⟨p, sid, hm⟩
        · exact absurd hm (hlc p sid)
      · rw [hl] at hm
        rcases List.mem_append.1 hm with hm | hm
        · exact .inr ⟨e, hm, c, p, h⟩
        · exact absurd h (he e hm c p)
    rcases h this with h | h | h | h
    · exact .inl (by rw [hc]; exact h)
    · exact .inr (.inl (by rw [hgv, downs_append]; exact List.mem_append_left _ h))
    · exact .inr (.inr (.inl (by rw [hgv, downs_append]; exact List.mem_append_left _ h)))
    · exact .inr (.inr (.inr (ht h)))

omit [DecidableEq I] [DecidableEq A] in
theorem held_eff {s s' : Gear A C S} {o : Option (XOp I A × XOut I A)} (h : Eff E s o s') (x : Nat)
    (gv : List (XEmit A)) (told : Prop) (hcl : ∀ k, s.conns.get? x = some k → k.state = .closing → .close ∈ downs gv)
    (hh : Held s gv told x) : Held s' (gv ++ emitted x o) (told ∨ Tells x o) x := by
  have ask : ∀ {t : Teardown} {y : Nat}, Asks t y o →
      emitted x o = (if y = x then [.down t] else []) := fun ha => (asks_emitted ha x).1
  have asked : ∀ {t : Teardown} {y : Nat}, Asks t y o → ∀ peer sid, .connect peer sid ∉ emitted x o := by
    intro t y ha peer sid
    rw [ask ha]
    split <;> simp
  have down : ∀ {t : Teardown}, Asks t x o → t ∈ downs (gv ++ emitted x o) := by
    intro t ha
    rw [ask ha, if_pos rfl, downs_append]
    exact List.mem_append_right _ (by simp [downs])
  have none_conn : ∀ peer sid, (.connect peer sid : XEmit A) ∉ emitted x (none : Option (XOp I A × XOut I A)) := by
    intro peer sid; simp [emitted]
  have dull : Dull o → ∀ peer sid, .connect peer sid ∉ emitted x o := by
    intro hd peer sid; rw [(dull_emitted hd x).1]; simp
  have off : ∀ {y : Nat} {m : Map Nat (Wired A C)}, (y ≠ x → m.get? x = s.conns.get? x) →
      ∀ {P : Prop}, (y = x → P) → P ∨ m.get? x = s.conns.get? x := by
    intro y m hm P hP
    by_cases hy : y = x
    · exact .inl (hP hy)
    · exact .inr (hm hy)
  cases h with
  | same o hd => exact hh.of [] (List.append_nil _).symm (by simp) _ rfl (dull hd) .inl (by simp)
  | datagram io dst b => exact hh.of [_] rfl (by simp) _ rfl none_conn .inl (by simp)
  | listen io c => exact hh.of [_] rfl (by simp) _ rfl none_conn .inl (by simp)
  | refuse o io io' c hl hd => exact hh.of [_, _] rfl (by simp) _ rfl (dull hd) .inl (by simp)
  | accept io c peer y now hl hw =>
    by_cases hy : y = x
    · subst hy; exact fun _ => .inl (by simp [Map.get?_insert_self])
    · refine hh.of [_] rfl (by simpa using fun h => absurd h hy) _ rfl (by simp [emitted, emitOf]) .inl ?_
      simp only [Map.get?_insert, if_neg hy]; simp
  | connect y peer sid =>
    by_cases hy : y = x
    · subst hy; exact fun _ => .inl (by simp [Map.get?_insert_self])
    · refine hh.of [] (List.append_nil _).symm (by simp) _ rfl (by simp [emitted, emitOf, hy]) .inl ?_
      simp only [Map.get?_insert, if_neg hy]; simp
  | dialOk io y k c pool hk hs hp hw =>
    refine hh.of [_] rfl (by simp) _ rfl none_conn .inl ?_
    simp only [Map.get?_insert]; split <;> simp
  | dialRefused o io io' y k c pool hk hs hp hd ht =>
    refine hh.of [_, _] rfl (by simp) _ rfl (dull hd) .inl ?_
    by_cases hy : y = x
    · subst hy; exact .inr (.inr (.inr (.inl (.inr ht))))
    · simp only [Map.get?_erase, if_neg hy]; simp
  | dialError o io io' io'' y k c pool hk hs hp hw hd ht =>
    refine hh.of [_, _, _] rfl (by simp) _ rfl (dull hd) .inl ?_
    by_cases hy : y = x
    · subst hy; exact .inr (.inr (.inr (.inl (.inr ht))))
    · simp only [Map.get?_erase, if_neg hy]; simp
  | downNone o t y hk ha => exact hh.of [] (List.append_nil _).symm (by simp) _ rfl (asked ha) .inl (by simp)
  | shutdown o y k hk ha =>
    refine hh.of [] (List.append_nil _).symm (by simp) _ rfl (asked ha) .inl ?_
    simp only [Map.get?_insert]; split <;> simp
  | closing o y k c mark deadline hk hs hh' ha =>
    refine hh.of [] (List.append_nil _).symm (by simp) _ rfl (asked ha) .inl ?_
    simp only [Map.get?_insert]; split <;> simp
  | forget o y k hk hs ha =>
    refine hh.of [] (List.append_nil _).symm (by simp) _ rfl (ha.elim (fun h => asked h) (fun h => asked h)) .inl ?_
    by_cases hy : y = x
    · subst hy; exact ha.elim (fun h => .inr (.inl (down h))) (fun h => .inr (.inr (.inl (down h))))
    · simp only [Map.get?_erase, if_neg hy]; simp
  | gone o io io' y k c hk hs ha hw =>
    refine hh.of [_, _] rfl (by simp) _ rfl (asked ha) .inl ?_
    by_cases hy : y = x
    · subst hy; exact .inr (.inl (down ha))
    · simp only [Map.get?_erase, if_neg hy]; simp
  | reset o io io' y k c hk hs ha =>
    refine hh.of [_, _] rfl (by simp) _ rfl ?_ .inl ?_
    · rcases ha with ha | ha | ⟨rfl, _⟩
      · exact asked ha
      · exact asked ha
      · exact none_conn
    · by_cases hy : y = x
      · subst hy
        rcases ha with ha | ha | ⟨rfl, hst⟩
        · exact .inr (.inl (down ha))
        · exact .inr (.inr (.inl (down ha)))
        · exact .inr (.inl (by rw [downs_append]; exact List.mem_append_left _ (hcl k hk hst)))
      · simp only [Map.get?_erase, if_neg hy]; simp
  | windShut o y k c deadline hk hs hh' ha =>
    refine hh.of [] (List.append_nil _).symm (by simp) _ rfl (asked ha) .inl ?_
    by_cases hy : y = x
    · subst hy; exact .inr (.inl (down ha))
    · simp only [Map.get?_erase, if_neg hy]; simp
  | windDown o io y k c deadline hk hs hh' hz ha hw =>
    refine hh.of [_] rfl (by simp) _ rfl ?_ .inl ?_
    · rcases ha with ha | ⟨rfl, _⟩
      · exact asked ha
      · exact none_conn
    · by_cases hy : y = x
      · subst hy
        rcases ha with ha | ⟨rfl, hst⟩
        · exact .inr (.inl (down ha))
        · exact .inr (.inl (by rw [downs_append]; exact List.mem_append_left _ (hcl k hk hst)))
      · simp only [Map.get?_erase, if_neg hy]; simp
  | fetch y peer b k hk =>
    refine hh.of [] (List.append_nil _).symm (by simp) _ rfl ?_ .inl ?_
    · intro p sid; simp only [emitted, emitOf]; split <;> simp
    · simp only [Map.get?_insert]; split <;> simp
  | lost io y peer b hk =>
    refine hh.of [_] rfl (by simp) _ rfl ?_ .inl (by simp)
    intro p sid; simp only [emitted, emitOf]; split <;> simp
  | read io y k c b now r hk hs hw hr =>
    exact hh.of [_] rfl (by simp) _ rfl (by intro p sid; simp [emitted, hr x]) .inl (by simp)
  | eof io y k c now r hk hs he hw hr =>
    refine hh.of [_] rfl (by simp) _ rfl (by intro p sid; simp [emitted, hr x]) .inl ?_
    simp only [Map.get?_insert]; split <;> simp
  | write y k c out ws hk hs ho hf hw =>
    refine hh.of (ws.map _) rfl ?_ _ rfl none_conn .inl ?_
    · intro e he
      obtain ⟨w, _, rfl⟩ := List.mem_map.1 he
      simp
    · simp only [Map.get?_insert]; split <;> simp
  | promote up hup =>
    refine hh.of [] (List.append_nil _).symm (by simp) _ rfl none_conn .inl ?_
    cases hk : s.conns.get? x with
    | none => rw [get_promote, hk]; simp
    | some k => rw [get_promote, hk]; simp
  | shut io y k c hk hs hf hst ho hw =>
    refine hh.of [_] rfl (by simp) _ rfl none_conn .inl ?_
    simp only [Map.get?_insert]; split <;> simp
  | progress y k mark deadline hk hst hm =>
    refine hh.of [] (List.append_nil _).symm (by simp) _ rfl none_conn .inl ?_
    simp only [Map.get?_insert]; split <;> simp
  | reap io io' c d a hd ha hw =>
    refine hh.of [_, _] rfl ?_ _ rfl none_conn .inl (by simp)
    rcases ha with rfl | rfl <;> simp

/-- An exchange whose connection was asked for or accepted has it, or was taken down, or its dial failed. -/
theorem held_moves {t0 : Nat} (hnew : Ep.tryNew cfg env t0 = .ok e0) {g : Engine I A C S}
    (hr : Reached cfg env X T E e0 cmp0 io0 handles listener g) (x : Nat) :
    Held (gear g) (given g x) (∃ now r, (XOp.dialFailed x now, r) ∈ g.hist) x := by
  induction hr with
  | refl =>
    intro h
    rcases h with ⟨p, sid, h⟩ | ⟨e, h, _⟩
    · cases h
    · cases h
  | @snoc b c hr hm ih =>
    obtain ⟨o, ho, hs⟩ := move_eff hm (nodup_moves hr Map.nodup_nil)
    have := held_eff ho x (given b x) _ (fun k hk hst => (pipe hnew hr x).clos k hk hst) ih
    cases hs with
    | none _ h2 =>
      rw [given_none h2, h2]
      intro hh
      rcases this (by simpa [emitted] using hh) with h | h | h | h
      · exact .inl h
      · exact .inr (.inl (by simpa [emitted] using h))
      · exact .inr (.inr (.inl (by simpa [emitted] using h)))
      · rcases h with h | ⟨_, _, h⟩
        · exact .inr (.inr (.inr h))
        · cases h
    | one op _ h2 =>
      rw [given_one h2]
      intro hh
      rcases this hh with h | h | h | h
      · exact .inl h
      · exact .inr (.inl h)
      · exact .inr (.inr (.inl h))
      · refine .inr (.inr (.inr ?_))
        rw [h2]
        rcases h with ⟨now, r, h⟩ | ⟨now, r, h⟩
        · exact ⟨now, r, List.mem_append_left _ h⟩
        · simp only [Option.map_some, Option.some.injEq] at h
          exact ⟨now, r, List.mem_append_right _ (by rw [h]; simp)⟩
end

end Engine
end Verif
