import Verif.Proof.EngineEff
/-
An exchange the engine ever dealt with was handed out by the coordinator and will not be dialled again.
-/
namespace Verif.Engine
open Verif Coord Spec
variable {I A C S : Type} [DecidableEq I] [DecidableEq A] [DecidableEq C]
variable {cfg : Cfg I A} {env : Env I A} {X : XCfg} {T : TEnv} {E : EEnv S C A}
variable {e0 : Ep I A} {cmp0 : CmpOptions} {io0 : S} {handles : List C} {listener : Option C}

/-- The engine has dealt with the exchange. -/
def Dealt (g : Engine I A C S) (x : Nat) : Prop :=
  g.conns.get? x ≠ none ∨ given g x ≠ [] ∨ ∃ e ∈ g.log, exchangeOf e.2 = some x

/-- The call hands out something for the exchange. -/
def Names (x : Nat) (o : Option (XOp I A × XOut I A)) : Prop :=
  (∃ op, o = some (op, .accepted (some x))) ∨ ∃ op r, o = some (op, r) ∧ emitOf x r ≠ []

omit [DecidableEq A] [DecidableEq C] in
theorem get_promote {m : Map Nat (Wired A C)} (up : Wired A C → Bool) (x : Nat) :
    Map.get? (m.map (fun e => if up e.2 then (e.1, { e.2 with state := SockState.established }) else e)) x =
      (m.get? x).map (fun k => if up k then { k with state := .established } else k) := by
  induction m with
  | nil => rfl
  | cons e m ih =>
    obtain ⟨y, k⟩ := e
    simp only [List.map_cons]
    by_cases hc : up k = true
    · rw [if_pos hc, Map.get?_cons, Map.get?_cons, ih]
      by_cases h : y = x
      · simp [h, hc]
      · simp [h]
    · rw [if_neg hc, Map.get?_cons, Map.get?_cons, ih]
      by_cases h : y = x
      · simp only [h, if_true, Option.map_some, if_neg hc]
      · simp [h]

omit [DecidableEq I] [DecidableEq A] in
theorem asks_names {t : Teardown} {x : Nat} {o : Option (XOp I A × XOut I A)} (h : Asks t x o) : Names x o :=
  .inr ⟨_, _, h, by simp [emitOf]⟩

omit [DecidableEq I] [DecidableEq A] in
theorem eff_new {s s' : Gear A C S} {o : Option (XOp I A × XOut I A)} (h : Eff E s o s') (x : Nat) :
    (s'.conns.get? x ≠ none → s.conns.get? x ≠ none ∨ Names x o) ∧
      (∀ e ∈ s'.log, exchangeOf e.2 = some x → e ∈ s.log ∨ s.conns.get? x ≠ none ∨ Names x o) := by
  have ins : ∀ (y : Nat) (k k' : Wired A C), s.conns.get? y = some k → (s.conns.insert y k').get? x ≠ none →
      s.conns.get? x ≠ none ∨ Names x o := by
    intro y k k' hk hx
    rw [Map.get?_insert] at hx
    split at hx
    · next e => subst e; exact .inl (by rw [hk]; simp)
    · exact .inl hx
  have ers : ∀ (y : Nat), (s.conns.erase y).get? x ≠ none → s.conns.get? x ≠ none ∨ Names x o := by
    intro y hx
    rw [Map.get?_erase] at hx
    split at hx
    · exact absurd rfl hx
    · exact .inl hx
  cases h with
  | same o => exact ⟨.inl, fun e he _ => .inl he⟩
  | datagram => exact ⟨.inl, fun e he hx => by simp at he; rcases he with he | rfl; exact .inl he; simp [exchangeOf] at hx⟩
  | listen => exact ⟨.inl, fun e he hx => by simp at he; rcases he with he | rfl; exact .inl he; simp [exchangeOf] at hx⟩
  | refuse =>
    exact ⟨.inl, fun e he hx => by simp at he; rcases he with he | rfl | rfl; exact .inl he; all_goals simp [exchangeOf] at hx⟩
  | accept io c peer y now =>
    refine ⟨fun hx => ?_, fun e he hx => ?_⟩
    · rw [Map.get?_insert] at hx
      split at hx
      · next e => subst e; exact .inr (.inl ⟨_, rfl⟩)
      · exact .inl hx
    · simp at he
      rcases he with he | rfl
      · exact .inl he
      · simp [exchangeOf] at hx; subst hx; exact .inr (.inr (.inl ⟨_, rfl⟩))
  | connect y peer sid =>
    refine ⟨fun hx => ?_, fun e he _ => .inl he⟩
    rw [Map.get?_insert] at hx
    split at hx
    · next e => subst e; exact .inr (.inr ⟨_, _, rfl, by simp [emitOf]⟩)
    · exact .inl hx
  | dialOk io y k c pool hk =>
    refine ⟨ins y k _ hk, fun e he hx => ?_⟩
    simp at he
    rcases he with he | rfl
    · exact .inl he
    · simp [exchangeOf] at hx; subst hx; exact .inr (.inl (by rw [hk]; simp))
  | dialRefused o io io' y =>
    exact ⟨ers y, fun e he hx => by simp at he; rcases he with he | rfl | rfl; exact .inl he; all_goals simp [exchangeOf] at hx⟩
  | dialError o io io' io'' y k c pool hk =>
    refine ⟨ers y, fun e he hx => ?_⟩
    simp at he
    rcases he with he | rfl | rfl | rfl
    · exact .inl he
    · simp [exchangeOf] at hx; subst hx; exact .inr (.inl (by rw [hk]; simp))
    all_goals simp [exchangeOf] at hx
  | downNone => exact ⟨.inl, fun e he _ => .inl he⟩
  | shutdown o y k hk => exact ⟨ins y k _ hk, fun e he _ => .inl he⟩
  | closing o y k c mark deadline hk => exact ⟨ins y k _ hk, fun e he _ => .inl he⟩
  | forget o y => exact ⟨ers y, fun e he _ => .inl he⟩
  | gone o io io' y =>
    exact ⟨ers y, fun e he hx => by simp at he; rcases he with he | rfl | rfl; exact .inl he; all_goals simp [exchangeOf] at hx⟩
  | reset o io io' y =>
    exact ⟨ers y, fun e he hx => by simp at he; rcases he with he | rfl | rfl; exact .inl he; all_goals simp [exchangeOf] at hx⟩
  | windShut o y => exact ⟨ers y, fun e he _ => .inl he⟩
  | windDown o io y k c deadline hk =>
    refine ⟨ers y, fun e he hx => ?_⟩
    simp at he
    rcases he with he | rfl
    · exact .inl he
    · simp [exchangeOf] at hx; subst hx; exact .inr (.inl (by rw [hk]; simp))
  | fetch y peer b k hk => exact ⟨ins y k _ hk, fun e he _ => .inl he⟩
  | lost io y peer b hk =>
    refine ⟨.inl, fun e he hx => ?_⟩
    simp at he
    rcases he with he | rfl
    · exact .inl he
    · simp [exchangeOf] at hx; subst hx; exact .inr (.inr (.inr ⟨_, _, rfl, by simp [emitOf]⟩))
  | read io y k c b now r hk =>
    refine ⟨.inl, fun e he hx => ?_⟩
    simp at he
    rcases he with he | rfl
    · exact .inl he
    · simp [exchangeOf] at hx; subst hx; exact .inr (.inl (by rw [hk]; simp))
  | eof io y k c now r hk =>
    refine ⟨ins y k _ hk, fun e he hx => ?_⟩
    simp at he
    rcases he with he | rfl
    · exact .inl he
    · simp [exchangeOf] at hx; subst hx; exact .inr (.inl (by rw [hk]; simp))
  | write y k c out ws hk =>
    refine ⟨ins y k _ hk, fun e he hx => ?_⟩
    rcases List.mem_append.1 he with he | he
    · exact .inl he
    · obtain ⟨w, _, rfl⟩ := List.mem_map.1 he
      simp [exchangeOf] at hx; subst hx; exact .inr (.inl (by rw [hk]; simp))
  | promote up hup =>
    refine ⟨fun hx => ?_, fun e he _ => .inl he⟩
    simp only [get_promote] at hx
    cases hk : s.conns.get? x with
    | none => rw [hk] at hx; exact absurd rfl hx
    | some k => exact .inl (by simp)
  | shut io y k c hk =>
    refine ⟨ins y k _ hk, fun e he hx => ?_⟩
    simp at he
    rcases he with he | rfl
    · exact .inl he
    · simp [exchangeOf] at hx; subst hx; exact .inr (.inl (by rw [hk]; simp))
  | progress y k mark deadline hk => exact ⟨ins y k _ hk, fun e he _ => .inl he⟩
  | reap io io' c d a hd ha =>
    refine ⟨.inl, fun e he hx => ?_⟩
    simp at he
    rcases he with he | rfl | rfl
    · exact .inl he
    · rcases ha with rfl | rfl <;> simp [exchangeOf] at hx
    · simp [exchangeOf] at hx

theorem names_settled {t0 : Nat} (hnew : Ep.tryNew cfg env t0 = .ok e0) {g g' : Engine I A C S}
    (hr : Reached cfg env X T E e0 cmp0 io0 handles listener g) (hm : EMove cfg env X T E g g') {op : XOp I A}
    (hs : HStep cfg env X T g g' (some op)) {x : Nat}
    (hx : Names x (some (op, (g.coord.step cfg env X T op).2))) : Settled g' x := by
  have hr' : Reached cfg env X T E e0 cmp0 io0 handles listener g' := .snoc hr hm
  have hsh := shape hr
  cases hs with
  | one _ h1 h2 =>
    rcases hx with ⟨op', h⟩ | ⟨op', r, h, he⟩
    · simp only [Option.some.injEq, Prod.mk.injEq] at h
      obtain ⟨rfl, h⟩ := h
      have hop : ∃ peer now, op = .accept peer now := by
        cases op <;> simp [Coord.step] at h ⊢
      obtain ⟨peer, now, rfl⟩ := hop
      simp only [Coord.step, XOut.accepted.injEq] at h
      have h3 : g'.coord = (g.coord.accept cfg X peer now).1 := h1
      unfold Settled
      rw [h3]
      unfold Coord.accept at h ⊢
      simp only [] at h ⊢
      split at h
      · cases h
      · next h4 =>
        split at h
        · cases h
        · next h5 =>
          simp only [Option.some.injEq] at h
          rw [if_neg h4, if_neg h5]
          simp only [Coord.view]
          refine ⟨by omega, ?_⟩
          rw [List.filter_eq_nil_iff.2]
          · rfl
          · intro e he1
            have := hsh.connlt e he1
            simp only [decide_eq_true_eq]
            omega
    · simp only [Option.some.injEq, Prod.mk.injEq] at h
      obtain ⟨rfl, rfl⟩ := h
      by_cases hp : op = .pollTransport
      · subst hp
        have h3 : g'.coord = g.coord.pollTransport.1 := h1
        simp only [Coord.step] at he h2
        cases ho : g.coord.out with
        | nil => simp [Coord.pollTransport, ho, emitOf] at he
        | cons e rest =>
          obtain ⟨y, peer, b⟩ := e
          have hv : g.coord.pollTransport.2 = some (y, peer, b) := by simp [Coord.pollTransport, ho]
          rw [hv] at he h2
          have hc := fetch_late hm h2
          have hy : y = x := by
            simp only [emitOf] at he
            split at he
            · assumption
            · exact absurd rfl he
          subst hy
          refine ⟨?_, ?_⟩
          · rw [h3]
            have := hsh.outlt (y, peer, b) (by rw [ho]; exact List.mem_cons_self)
            simpa [Coord.pollTransport, ho] using this
          · rw [h3]
            simp [Coord.view, pollTransport_connects, hc]
      · by_cases hq : op = .pollAction
        · subst hq
          have h3 : g'.coord = g.coord.pollAction.1 := h1
          simp only [Coord.step] at he h2
          cases hc : g.coord.connects with
          | nil =>
            cases ht : takeTeardown g.coord.hasBytes g.coord.teardowns with
            | none => simp [Coord.pollAction, hc, ht, emitOf] at he
            | some e =>
              obtain ⟨⟨t, y⟩, rest⟩ := e
              have hv : g.coord.pollAction = ({ g.coord with teardowns := rest }, some (.down t y)) := by
                simp only [Coord.pollAction, hc, ht]
              rw [hv] at he h3
              have hy : y = x := by
                simp only [emitOf] at he
                split at he
                · assumption
                · exact absurd rfl he
              subst hy
              refine ⟨?_, ?_⟩
              · rw [h3]
                have h4 := (take_view ht).2.1
                have h5 : t ∈ (g.coord.teardowns.filter (fun e => e.2 = y)).map Prod.fst := by
                  rw [h4]; exact List.mem_cons_self
                obtain ⟨e, he1, _⟩ := List.mem_map.1 h5
                have h6 := List.mem_filter.1 he1
                have h7 : e.2 = y := by simpa using h6.2
                have := hsh.downlt e h6.1
                rw [h7] at this
                exact this
              · rw [h3]; simp [Coord.view, hc]
          | cons e rest =>
            obtain ⟨y, peer, sid⟩ := e
            have hv : g.coord.pollAction = ({ g.coord with connects := rest }, some (.connect y peer sid)) := by
              simp only [Coord.pollAction, hc]
            rw [hv] at he h2 h3
            have hy : y = x := by
              simp only [emitOf] at he
              split at he
              · assumption
              · exact absurd rfl he
            subst hy
            refine ⟨?_, ?_⟩
            · rw [h3]
              exact hsh.connlt (y, peer, sid) (by rw [hc]; exact List.mem_cons_self)
            · have hd := (drive hnew hr' y).conn
              rw [given_one h2, dialled_append] at hd
              simp only [emitOf, if_true, dialled] at hd
              exact List.length_eq_zero_iff.1 (by omega)
        · exact absurd (emit_calm g.coord op hp hq x) he

/-- An exchange the engine ever dealt with was handed out, and no dial is queued for it. -/
theorem begun {t0 : Nat} (hnew : Ep.tryNew cfg env t0 = .ok e0) {g : Engine I A C S}
    (hr : Reached cfg env X T E e0 cmp0 io0 handles listener g) : ∀ x, Dealt g x → Settled g x := by
  induction hr with
  | refl =>
    intro x hx
    rcases hx with h | h | ⟨e, he, _⟩
    · exact absurd rfl h
    · exact absurd rfl h
    · cases he
  | @snoc b c hr hm ih =>
    intro x hx
    have hn : b.conns.NodupKeys := nodup_moves hr Map.nodup_nil
    obtain ⟨o, ho, hs⟩ := move_eff hm hn
    have hk := eff_new ho x
    have old : Dealt b x → Settled c x := fun h => (ih x h).hstep hnew hr hs
    have new : Names x (o.map (fun op => (op, (b.coord.step cfg env X T op).2))) → Settled c x := by
      intro h
      cases o with
      | none => rcases h with ⟨_, h⟩ | ⟨_, _, h, _⟩ <;> cases h
      | some op => exact names_settled hnew hr hm hs h
    rcases hx with h | h | ⟨e, he, hx⟩
    · rcases hk.1 h with h | h
      · exact old (.inl h)
      · exact new h
    · cases hs with
      | none _ h2 => exact old (.inr (.inl (by rw [given_none h2] at h; exact h)))
      | one op _ h2 =>
        rw [given_one h2] at h
        by_cases h3 : given b x = []
        · rw [h3] at h
          exact new (.inr ⟨_, _, rfl, h⟩)
        · exact old (.inr (.inl h3))
    · rcases hk.2 e he hx with h | h | h
      · exact old (.inr (.inr ⟨e, h, hx⟩))
      · exact old (.inl h)
      · exact new h

end Verif.Engine
