import Verif.Proof.EngineBegun
/-
What one exchange goes through in the engine.
-/
namespace Verif

/-- What the engine has of one exchange: its connection, what the coordinator handed out for it, what was written and
read for it, what the coordinator was given of it, and whether its sending half was closed. -/
structure EV (A C : Type) where
  k : Option (Wired A C) := none
  gv : List (XEmit A) := []
  wr : Bytes := []
  rd : List (Bytes × Bool) := []
  fd : List (Bytes × Bool) := []
  fin : Bool := false

namespace Engine
open Verif Coord Spec
variable {I A C S : Type}

def isFin (x : Nat) : Act A C → Bool
  | .fin y _ => y = x
  | _ => false

theorem isFin_fin (x y : Nat) (c : C) : isFin x (.fin y c : Act A C) = decide (y = x) := rfl
theorem isFin_accept (x y : Nat) (c : C) (p : A) : isFin x (.accept y c p : Act A C) = false := rfl
theorem isFin_connect (x y : Nat) (c : C) (p : A) (b : Bool) : isFin x (.connect y c p b : Act A C) = false := rfl
theorem isFin_abort (x : Nat) (c : C) : isFin x (.abort c : Act A C) = false := rfl
theorem isFin_free (x : Nat) (c : C) : isFin x (.free c : Act A C) = false := rfl
theorem isFin_gone (x : Nat) (c : C) : isFin x (.gone c : Act A C) = false := rfl
theorem isFin_lost (x y : Nat) (b : Bytes) : isFin x (.lost y b : Act A C) = false := rfl
theorem isFin_read (x y : Nat) (c : C) (b : Bytes) : isFin x (.read y c b : Act A C) = false := rfl
theorem isFin_eof (x y : Nat) (c : C) : isFin x (.eof y c : Act A C) = false := rfl

theorem bytesWritten_append (x : Nat) (l l' : List (S × Act A C)) :
    bytesWritten x (l ++ l') = bytesWritten x l ++ bytesWritten x l' := by
  induction l with
  | nil => rfl
  | cons e l ih =>
    obtain ⟨s, a⟩ := e
    cases a <;> simp only [List.cons_append, bytesWritten, ih]
    split <;> simp

theorem inputRead_append (x : Nat) (l l' : List (S × Act A C)) :
    inputRead x (l ++ l') = inputRead x l ++ inputRead x l' := by
  induction l with
  | nil => rfl
  | cons e l ih =>
    obtain ⟨s, a⟩ := e
    cases a <;> simp only [List.cons_append, inputRead, ih]
    all_goals split <;> simp

theorem inputGiven_append (x : Nat) (l l' : List (XOp I A × XOut I A)) :
    inputGiven x (l ++ l') = inputGiven x l ++ inputGiven x l' := by
  induction l with
  | nil => rfl
  | cons e l ih =>
    obtain ⟨op, r⟩ := e
    cases op <;> simp only [List.cons_append, inputGiven, ih]
    split <;> simp

theorem written_none (x : Nat) (l : List (S × Act A C)) (h : ∀ e ∈ l, exchangeOf e.2 ≠ some x) :
    bytesWritten x l = [] ∧ inputRead x l = [] ∧ l.any (fun e => isFin x e.2) = false := by
  induction l with
  | nil => exact ⟨rfl, rfl, rfl⟩
  | cons e l ih =>
    obtain ⟨h1, h2, h3⟩ := ih (fun e he => h e (List.mem_cons_of_mem _ he))
    have h0 := h e List.mem_cons_self
    obtain ⟨s, a⟩ := e
    have h3' : (((s, a) :: l).any (fun e => isFin x e.2)) = isFin x a := by
      rw [List.any_cons, h3, Bool.or_false]
    rw [h3']
    cases a <;> simp only [exchangeOf, ne_eq, Option.some.injEq] at h0 <;>
      simp only [bytesWritten, inputRead, isFin, h1, h2, if_neg h0, decide_eq_false h0, and_self]

theorem written_writes (x : Nat) (c : C) (ws : List (S × Bytes)) :
    bytesWritten x (ws.map (fun w => (w.1, (Act.write x c w.2 : Act A C)))) = (ws.map Prod.snd).flatten := by
  induction ws with
  | nil => rfl
  | cons w ws ih => simp [bytesWritten, ih]

theorem read_writes (x y : Nat) (c : C) (ws : List (S × Bytes)) :
    inputRead y (ws.map (fun w => (w.1, (Act.write x c w.2 : Act A C)))) = [] ∧
    (ws.map (fun w => (w.1, (Act.write x c w.2 : Act A C)))).any (fun e => isFin y e.2) = false := by
  induction ws with
  | nil => exact ⟨rfl, rfl⟩
  | cons w ws ih => exact ⟨by simp only [List.map_cons, inputRead]; exact ih.1, by rw [List.map_cons, List.any_cons, ih.2]; rfl⟩

local macro "norm_ev" : tactic => `(tactic| simp only [bytesWritten, inputRead, List.any_cons, List.any_nil, isFin_fin,
  isFin_accept, isFin_connect, isFin_abort, isFin_free, isFin_gone, isFin_lost, isFin_read, isFin_eof, List.append_nil,
  Bool.or_false, Bool.or_true, Bool.true_or, if_true, decide_true])

/-- One move of the engine, seen from one exchange. -/
inductive EStep : EV A C → EV A C → Prop
  | refl (v : EV A C) : EStep v v
  | accept (c : C) (peer : A) : EStep {} { k := some { peer, socket := some c, state := .established } }
  | connect (peer : A) (sid : Nat) :
      EStep {} { k := some { peer, socket := none, state := .pendingDial }, gv := [.connect peer sid] }
  | dialOk (v : EV A C) (k : Wired A C) (c : C) : v.k = some k → k.state = .pendingDial →
      EStep v { v with k := some { k with socket := some c, state := .dialing } }
  | dialGone (v : EV A C) (k : Wired A C) : v.k = some k → k.state = .pendingDial → EStep v { v with k := none }
  | downNone (v : EV A C) (t : Teardown) : v.k = none → EStep v { v with gv := v.gv ++ [.down t] }
  | shutdown (v : EV A C) (k : Wired A C) : v.k = some k →
      EStep v { v with k := some { k with finPending := true }, gv := v.gv ++ [.down .shutdown] }
  | closing (v : EV A C) (k : Wired A C) (mark deadline : Nat) : v.k = some k → k.state ≠ .halfClosed →
      k.socket ≠ none →
      EStep v { v with gv := v.gv ++ [.down .close], k := some { k with
        state := .closing, closeDeadline := some deadline, drainMark := mark, finPending := false } }
  | torn (v : EV A C) (k : Wired A C) (t : Teardown) : v.k = some k → t ≠ .shutdown →
      EStep v { v with k := none, gv := v.gv ++ [.down t] }
  | tornShut (v : EV A C) (k : Wired A C) : v.k = some k → k.outBytes = 0 →
      EStep v { v with k := none, gv := v.gv ++ [.down .close], fin := true }
  | wound (v : EV A C) (k : Wired A C) : v.k = some k → k.state = .closing → k.outBytes = 0 →
      EStep v { v with k := none, fin := true }
  | dropped (v : EV A C) (k : Wired A C) : v.k = some k → k.state = .closing → EStep v { v with k := none }
  | fetch (v : EV A C) (k : Wired A C) (b : Bytes) : v.k = some k →
      EStep v { v with k := some { k with out := k.out ++ [b] }, gv := v.gv ++ [.bytes b] }
  | lost (v : EV A C) (b : Bytes) : v.k = none → EStep v { v with gv := v.gv ++ [.bytes b] }
  | read (v : EV A C) (k : Wired A C) (b : Bytes) : v.k = some k →
      EStep v { v with rd := v.rd ++ [(b, false)], fd := v.fd ++ [(b, false)] }
  | eof (v : EV A C) (k : Wired A C) : v.k = some k → k.eofDelivered = false →
      EStep v { v with k := some { k with eofDelivered := true }, rd := v.rd ++ [([], true)], fd := v.fd ++ [([], true)] }
  | write (v : EV A C) (k : Wired A C) (out : List Bytes) (w : Bytes) : v.k = some k → k.out ≠ [] →
      k.out.flatten = w ++ out.flatten → EStep v { v with k := some { k with out := out }, wr := v.wr ++ w }
  | promote (v : EV A C) (k : Wired A C) : v.k = some k → k.state = .dialing →
      EStep v { v with k := some { k with state := .established } }
  | shut (v : EV A C) (k : Wired A C) : v.k = some k → k.finPending = true → k.state = .established → k.out = [] →
      EStep v { v with k := some { k with finPending := false, state := .halfClosed }, fin := true }
  | progress (v : EV A C) (k : Wired A C) (mark deadline : Nat) : v.k = some k → k.state = .closing →
      mark < k.drainMark → EStep v { v with k := some { k with drainMark := mark, closeDeadline := some deadline } }

/-- The exchange, in what the engine holds, with what was handed out and given back. -/
def evOf (s : Gear A C S) (gv : List (XEmit A)) (fd : List (Bytes × Bool)) (x : Nat) : EV A C :=
  ⟨s.conns.get? x, gv, bytesWritten x s.log, inputRead x s.log, fd, s.log.any (fun e => isFin x e.2)⟩

/-- What a call hands out and gives, for one exchange. -/
def emitted (x : Nat) (o : Option (XOp I A × XOut I A)) : List (XEmit A) :=
  match o with
  | none => []
  | some e => emitOf x e.2
def fedBy (x : Nat) (o : Option (XOp I A × XOut I A)) : List (Bytes × Bool) := inputGiven x o.toList

theorem dull_emitted {o : Option (XOp I A × XOut I A)} (h : Dull o) (x : Nat) : emitted x o = [] ∧ fedBy x o = [] := by
  cases o with
  | none => exact ⟨rfl, rfl⟩
  | some e =>
    obtain ⟨op, r⟩ := e
    obtain ⟨h1, h2⟩ := h _ rfl
    refine ⟨h1 x, ?_⟩
    cases op <;> first | rfl | exact absurd rfl (h2 _ _ _ _)

theorem asks_emitted {t : Teardown} {y : Nat} {o : Option (XOp I A × XOut I A)} (h : Asks t y o) (x : Nat) :
    emitted x o = (if y = x then [.down t] else []) ∧ fedBy x o = [] := by
  rw [h]; exact ⟨rfl, rfl⟩

theorem outBytes_zero {k : Wired A C} (h : k.outBytes = 0) : k.out.flatten = [] := by
  rw [← List.length_eq_zero_iff, List.length_flatten]; exact h

section
variable [DecidableEq C] {E : EEnv S C A}

omit [DecidableEq C] in
theorem evOf_eq {s s' : Gear A C S} (gv : List (XEmit A)) (fd : List (Bytes × Bool)) {x : Nat}
    (es : List (S × Act A C)) (hl : s'.log = s.log ++ es) (h : ∀ e ∈ es, exchangeOf e.2 ≠ some x)
    (hc : s'.conns.get? x = s.conns.get? x) : evOf s' gv fd x = evOf s gv fd x := by
  obtain ⟨h1, h2, h3⟩ := written_none x es h
  simp only [evOf, hl, hc, bytesWritten_append, inputRead_append, List.any_append, h1, h2, h3, List.append_nil, Bool.or_false]

omit [DecidableEq C] in
theorem evOf_put {s s' : Gear A C S} (gv : List (XEmit A)) (fd : List (Bytes × Bool)) {x : Nat}
    (es : List (S × Act A C)) (hl : s'.log = s.log ++ es) {k : Option (Wired A C)} (hc : s'.conns.get? x = k) :
    evOf s' gv fd x = ⟨k, gv, bytesWritten x s.log ++ bytesWritten x es, inputRead x s.log ++ inputRead x es, fd,
      s.log.any (fun e => isFin x e.2) || es.any (fun e => isFin x e.2)⟩ := by
  simp only [evOf, hl, hc, bytesWritten_append, inputRead_append, List.any_append]

omit [DecidableEq C] in
theorem step_eq {s s' : Gear A C S} (gv : List (XEmit A)) (fd : List (Bytes × Bool)) {x : Nat}
    (es : List (S × Act A C)) (hl : s'.log = s.log ++ es) (h : ∀ e ∈ es, exchangeOf e.2 ≠ some x)
    (hc : s'.conns.get? x = s.conns.get? x) : EStep (evOf s gv fd x) (evOf s' gv fd x) := by
  rw [evOf_eq gv fd es hl h hc]; exact .refl _

omit [DecidableEq C] in
theorem step_put {s s' : Gear A C S} {v : EV A C} (gv : List (XEmit A)) (fd : List (Bytes × Bool)) {x : Nat}
    (es : List (S × Act A C)) (hl : s'.log = s.log ++ es) {k : Option (Wired A C)} (hc : s'.conns.get? x = k)
    (h : EStep v ⟨k, gv, bytesWritten x s.log ++ bytesWritten x es, inputRead x s.log ++ inputRead x es, fd,
      s.log.any (fun e => isFin x e.2) || es.any (fun e => isFin x e.2)⟩) : EStep v (evOf s' gv fd x) := by
  rw [evOf_put gv fd es hl hc]; exact h

theorem eff_view {s s' : Gear A C S} {o : Option (XOp I A × XOut I A)} (h : Eff E s o s') (x : Nat)
    (gv : List (XEmit A)) (fd : List (Bytes × Bool))
    (hfresh : (∃ op, o = some (op, .accepted (some x))) ∨ (∃ op peer sid, o = some (op, .action (some (.connect x peer sid)))) →
      evOf s gv fd x = {}) :
    EStep (evOf s gv fd x) (evOf s' (gv ++ emitted x o) (fd ++ fedBy x o) x) := by
  have none_emit : emitted x (none : Option (XOp I A × XOut I A)) = [] ∧ fedBy x (none : Option (XOp I A × XOut I A)) = [] :=
    ⟨rfl, rfl⟩
  cases h with
  | same o hd =>
    obtain ⟨h1, h2⟩ := dull_emitted hd x
    rw [h1, h2, List.append_nil, List.append_nil]; exact .refl _
  | datagram io dst b =>
    rw [none_emit.1, none_emit.2, List.append_nil, List.append_nil]
    exact step_eq (s := s) gv fd [(io, .datagram dst b)] rfl (by simp [exchangeOf]) rfl
  | listen io c =>
    rw [none_emit.1, none_emit.2, List.append_nil, List.append_nil]
    exact step_eq (s := s) gv fd [(io, .listen c)] rfl (by simp [exchangeOf]) rfl
  | refuse o io io' c hl hd =>
    obtain ⟨h1, h2⟩ := dull_emitted hd x
    rw [h1, h2, List.append_nil, List.append_nil]
    exact step_eq (s := s) gv fd [(io, .abort c), (io', .free c)] rfl (by simp [exchangeOf]) rfl
  | accept io c peer y now hl hw =>
    have e1 : emitted x (some (XOp.accept peer now, XOut.accepted (some y)) : Option (XOp I A × XOut I A)) = [] := rfl
    have e2 : fedBy x (some (XOp.accept peer now, XOut.accepted (some y)) : Option (XOp I A × XOut I A)) = [] := rfl
    rw [e1, e2, List.append_nil, List.append_nil]
    by_cases hy : y = x
    · subst hy
      have h0 := hfresh (.inl ⟨_, rfl⟩)
      refine step_put (s := s) gv fd [(io, .accept y c peer)] rfl (Map.get?_insert_self _ _ _) ?_
      simp only [evOf, EV.mk.injEq] at h0
      simp only [h0.2.1, h0.2.2.1, h0.2.2.2.1, h0.2.2.2.2.1, h0.2.2.2.2.2, evOf, h0.1]
      exact .accept c peer
    · exact step_eq (s := s) gv fd [(io, .accept y c peer)] rfl (by simpa [exchangeOf] using hy)
        (by simp only [Map.get?_insert, if_neg hy])
  | connect y peer sid =>
    have e2 : fedBy x (some (XOp.pollAction, XOut.action (some (.connect y peer sid))) : Option (XOp I A × XOut I A)) = [] := rfl
    rw [e2, List.append_nil]
    by_cases hy : y = x
    · subst hy
      have h0 := hfresh (.inr ⟨_, _, _, rfl⟩)
      have e1 : emitted y (some (XOp.pollAction, XOut.action (some (.connect y peer sid))) : Option (XOp I A × XOut I A)) =
          [.connect peer sid] := by simp [emitted, emitOf]
      rw [e1]
      refine step_put (s := s) _ fd [] (List.append_nil _).symm (Map.get?_insert_self _ _ _) ?_
      simp only [evOf, EV.mk.injEq] at h0
      simp only [h0.2.1, h0.2.2.1, h0.2.2.2.1, h0.2.2.2.2.1, h0.2.2.2.2.2, evOf, h0.1]
      exact .connect peer sid
    · have e1 : emitted x (some (XOp.pollAction, XOut.action (some (.connect y peer sid))) : Option (XOp I A × XOut I A)) =
          [] := by simp [emitted, emitOf, hy]
      rw [e1, List.append_nil]
      exact step_eq (s := s) gv fd [] (List.append_nil _).symm (by simp)
        (by simp only [Map.get?_insert, if_neg hy])
  | dialOk io y k c pool hk hs hp hw =>
    rw [none_emit.1, none_emit.2, List.append_nil, List.append_nil]
    by_cases hy : y = x
    · subst hy
      refine step_put (s := s) gv fd [(io, .connect y c k.peer true)] rfl (Map.get?_insert_self _ _ _) ?_
      norm_ev
      exact EStep.dialOk (evOf s gv fd y) k c hk hs
    · exact step_eq (s := s) gv fd [(io, .connect y c k.peer true)] rfl (by simpa [exchangeOf] using hy)
        (by simp only [Map.get?_insert, if_neg hy])
  | dialRefused o io io' y k c pool hk hs hp hd =>
    obtain ⟨h1, h2⟩ := dull_emitted hd x
    rw [h1, h2, List.append_nil, List.append_nil]
    by_cases hy : y = x
    · subst hy
      refine step_put (s := s) gv fd [(io, .abort c), (io', .free c)] rfl (k := none) (by simp [Map.get?_erase]) ?_
      norm_ev
      exact EStep.dialGone (evOf s gv fd y) k hk hs
    · exact step_eq (s := s) gv fd [(io, .abort c), (io', .free c)] rfl (by simp [exchangeOf])
        (by simp only [Map.get?_erase, if_neg hy])
  | dialError o io io' io'' y k c pool hk hs hp hw hd =>
    obtain ⟨h1, h2⟩ := dull_emitted hd x
    rw [h1, h2, List.append_nil, List.append_nil]
    by_cases hy : y = x
    · subst hy
      refine step_put (s := s) gv fd [(io, .connect y c k.peer false), (io', .abort c), (io'', .free c)] rfl (k := none)
        (by simp [Map.get?_erase]) ?_
      norm_ev
      exact EStep.dialGone (evOf s gv fd y) k hk hs
    · exact step_eq (s := s) gv fd [(io, .connect y c k.peer false), (io', .abort c), (io'', .free c)] rfl
        (by simpa [exchangeOf] using hy) (by simp only [Map.get?_erase, if_neg hy])
  | downNone o t y hk ha =>
    obtain ⟨h1, h2⟩ := asks_emitted ha x
    rw [h1, h2, List.append_nil]
    by_cases hy : y = x
    · subst hy
      rw [if_pos rfl]
      exact EStep.downNone (evOf s gv fd y) t hk
    · rw [if_neg hy, List.append_nil]; exact .refl _
  | shutdown o y k hk ha =>
    obtain ⟨h1, h2⟩ := asks_emitted ha x
    rw [h1, h2, List.append_nil]
    by_cases hy : y = x
    · subst hy
      rw [if_pos rfl]
      refine step_put (s := s) _ fd [] (List.append_nil _).symm (Map.get?_insert_self _ _ _) ?_
      norm_ev
      exact EStep.shutdown (evOf s gv fd y) k hk
    · rw [if_neg hy, List.append_nil]
      exact step_eq (s := s) gv fd [] (List.append_nil _).symm (by simp)
        (by simp only [Map.get?_insert, if_neg hy])
  | closing o y k c mark deadline hk hs hh ha =>
    obtain ⟨h1, h2⟩ := asks_emitted ha x
    rw [h1, h2, List.append_nil]
    by_cases hy : y = x
    · subst hy
      rw [if_pos rfl]
      refine step_put (s := s) _ fd [] (List.append_nil _).symm (Map.get?_insert_self _ _ _) ?_
      norm_ev
      exact EStep.closing (evOf s gv fd y) k mark deadline hk hh (by rw [hs]; simp)
    · rw [if_neg hy, List.append_nil]
      exact step_eq (s := s) gv fd [] (List.append_nil _).symm (by simp)
        (by simp only [Map.get?_insert, if_neg hy])
  | forget o y k hk hs ha =>
    obtain ⟨t, ht, ha⟩ : ∃ t, t ≠ .shutdown ∧ Asks t y o := ha.elim (fun h => ⟨_, by simp, h⟩) (fun h => ⟨_, by simp, h⟩)
    obtain ⟨h1, h2⟩ := asks_emitted ha x
    rw [h1, h2, List.append_nil]
    by_cases hy : y = x
    · subst hy
      rw [if_pos rfl]
      refine step_put (s := s) _ fd [] (List.append_nil _).symm (k := none) (by simp [Map.get?_erase]) ?_
      norm_ev
      exact EStep.torn (evOf s gv fd y) k t hk ht
    · rw [if_neg hy, List.append_nil]
      exact step_eq (s := s) gv fd [] (List.append_nil _).symm (by simp)
        (by simp only [Map.get?_erase, if_neg hy])
  | gone o io io' y k c hk hs ha hw =>
    obtain ⟨h1, h2⟩ := asks_emitted ha x
    rw [h1, h2, List.append_nil]
    by_cases hy : y = x
    · subst hy
      rw [if_pos rfl]
      refine step_put (s := s) _ fd [(io, .gone c), (io', .free c)] rfl (k := none) (by simp [Map.get?_erase]) ?_
      norm_ev
      exact EStep.torn (evOf s gv fd y) k .close hk (by simp)
    · rw [if_neg hy, List.append_nil]
      exact step_eq (s := s) gv fd [(io, .gone c), (io', .free c)] rfl (by simp [exchangeOf])
        (by simp only [Map.get?_erase, if_neg hy])
  | reset o io io' y k c hk hs ha =>
    have hput : ∀ gv', evOf { s with pool := s.pool ++ [c], conns := s.conns.erase y
                                     log := s.log ++ [(io, .abort c), (io', .free c)] } gv' fd y =
        { evOf s gv' fd y with k := none } := by
      intro gv'
      refine (evOf_put (s := s) _ fd [(io, .abort c), (io', .free c)] rfl (k := none) (by simp [Map.get?_erase])).trans ?_
      norm_ev
      rfl
    have hother : y ≠ x → evOf { s with pool := s.pool ++ [c], conns := s.conns.erase y
                                        log := s.log ++ [(io, .abort c), (io', .free c)] } gv fd x = evOf s gv fd x := by
      intro hy
      exact evOf_eq (s := s) gv fd [(io, .abort c), (io', .free c)] rfl (by simp [exchangeOf])
        (by simp only [Map.get?_erase, if_neg hy])
    rcases ha with ha | ha | ⟨rfl, hst⟩
    · obtain ⟨h1, h2⟩ := asks_emitted ha x
      rw [h1, h2, List.append_nil]
      by_cases hy : y = x
      · subst hy
        rw [if_pos rfl, hput]
        exact EStep.torn (evOf s gv fd y) k .close hk (by simp)
      · rw [if_neg hy, List.append_nil, hother hy]; exact .refl _
    · obtain ⟨h1, h2⟩ := asks_emitted ha x
      rw [h1, h2, List.append_nil]
      by_cases hy : y = x
      · subst hy
        rw [if_pos rfl, hput]
        exact EStep.torn (evOf s gv fd y) k .abort hk (by simp)
      · rw [if_neg hy, List.append_nil, hother hy]; exact .refl _
    · rw [none_emit.1, none_emit.2, List.append_nil, List.append_nil]
      by_cases hy : y = x
      · subst hy
        rw [hput]
        exact EStep.dropped (evOf s gv fd y) k hk hst
      · rw [hother hy]; exact .refl _
  | windShut o y k c deadline hk hs hh ha =>
    obtain ⟨h1, h2⟩ := asks_emitted ha x
    rw [h1, h2, List.append_nil]
    by_cases hy : y = x
    · subst hy
      rw [if_pos rfl]
      refine step_put (s := s) _ fd [] (List.append_nil _).symm (k := none) (by simp [Map.get?_erase]) ?_
      norm_ev
      exact EStep.torn (evOf s gv fd y) k .close hk (by simp)
    · rw [if_neg hy, List.append_nil]
      exact step_eq (s := s) gv fd [] (List.append_nil _).symm (by simp)
        (by simp only [Map.get?_erase, if_neg hy])
  | windDown o io y k c deadline hk hs hh hz ha hw =>
    have hput : ∀ gv', evOf { s with conns := s.conns.erase y, closing := s.closing.insert c deadline
                                     log := s.log ++ [(io, .fin y c)] } gv' fd y =
        { evOf s gv' fd y with k := none, fin := true } := by
      intro gv'
      refine (evOf_put (s := s) _ fd [(io, .fin y c)] rfl (k := none) (by simp [Map.get?_erase])).trans ?_
      norm_ev
      rfl
    have hother : y ≠ x → evOf { s with conns := s.conns.erase y, closing := s.closing.insert c deadline
                                        log := s.log ++ [(io, .fin y c)] } gv fd x = evOf s gv fd x := by
      intro hy
      exact evOf_eq (s := s) gv fd [(io, .fin y c)] rfl (by simpa [exchangeOf] using hy)
        (by simp only [Map.get?_erase, if_neg hy])
    rcases ha with ha | ⟨rfl, hst⟩
    · obtain ⟨h1, h2⟩ := asks_emitted ha x
      rw [h1, h2, List.append_nil]
      by_cases hy : y = x
      · subst hy
        rw [if_pos rfl, hput]
        exact EStep.tornShut (evOf s gv fd y) k hk hz
      · rw [if_neg hy, List.append_nil, hother hy]; exact .refl _
    · rw [none_emit.1, none_emit.2, List.append_nil, List.append_nil]
      by_cases hy : y = x
      · subst hy
        rw [hput]
        exact EStep.wound (evOf s gv fd y) k hk hst hz
      · rw [hother hy]; exact .refl _
  | fetch y peer b k hk =>
    have e2 : fedBy x (some (XOp.pollTransport, XOut.bytes (some (y, peer, b))) : Option (XOp I A × XOut I A)) = [] := rfl
    have e1 : emitted x (some (XOp.pollTransport, XOut.bytes (some (y, peer, b))) : Option (XOp I A × XOut I A)) =
        if y = x then [.bytes b] else [] := rfl
    rw [e1, e2, List.append_nil]
    by_cases hy : y = x
    · subst hy
      rw [if_pos rfl]
      refine step_put (s := s) _ fd [] (List.append_nil _).symm (Map.get?_insert_self _ _ _) ?_
      norm_ev
      exact EStep.fetch (evOf s gv fd y) k b hk
    · rw [if_neg hy, List.append_nil]
      exact step_eq (s := s) gv fd [] (List.append_nil _).symm (by simp)
        (by simp only [Map.get?_insert, if_neg hy])
  | lost io y peer b hk =>
    have e2 : fedBy x (some (XOp.pollTransport, XOut.bytes (some (y, peer, b))) : Option (XOp I A × XOut I A)) = [] := rfl
    have e1 : emitted x (some (XOp.pollTransport, XOut.bytes (some (y, peer, b))) : Option (XOp I A × XOut I A)) =
        if y = x then [.bytes b] else [] := rfl
    rw [e1, e2, List.append_nil]
    by_cases hy : y = x
    · subst hy
      rw [if_pos rfl]
      refine step_put (s := s) _ fd [(io, .lost y b)] rfl (k := none) hk ?_
      norm_ev
      have h := EStep.lost (evOf s gv fd y) b hk
      simp only [evOf, hk] at h ⊢
      exact h
    · rw [if_neg hy, List.append_nil]
      exact step_eq (s := s) gv fd [(io, .lost y b)] rfl (by simpa [exchangeOf] using hy) rfl
  | read io y k c b now r hk hs hw hr =>
    have e1 : emitted x (some (XOp.data y b false now, r) : Option (XOp I A × XOut I A)) = [] := hr x
    have e2 : fedBy x (some (XOp.data y b false now, r) : Option (XOp I A × XOut I A)) = if y = x then [(b, false)] else [] := rfl
    rw [e1, e2, List.append_nil]
    by_cases hy : y = x
    · subst hy
      rw [if_pos rfl]
      refine step_put (s := s) gv _ [(io, .read y c b)] rfl rfl ?_
      norm_ev
      exact EStep.read (evOf s gv fd y) k b hk
    · rw [if_neg hy, List.append_nil]
      exact step_eq (s := s) gv fd [(io, .read y c b)] rfl (by simpa [exchangeOf] using hy) rfl
  | eof io y k c now r hk hs he hw hr =>
    have e1 : emitted x (some (XOp.data y [] true now, r) : Option (XOp I A × XOut I A)) = [] := hr x
    have e2 : fedBy x (some (XOp.data y [] true now, r) : Option (XOp I A × XOut I A)) = if y = x then [([], true)] else [] := rfl
    rw [e1, e2, List.append_nil]
    by_cases hy : y = x
    · subst hy
      rw [if_pos rfl]
      refine step_put (s := s) gv _ [(io, .eof y c)] rfl (Map.get?_insert_self _ _ _) ?_
      norm_ev
      exact EStep.eof (evOf s gv fd y) k hk he
    · rw [if_neg hy, List.append_nil]
      exact step_eq (s := s) gv fd [(io, .eof y c)] rfl (by simpa [exchangeOf] using hy)
        (by simp only [Map.get?_insert, if_neg hy])
  | write y k c out ws hk hs ho hf hw =>
    rw [none_emit.1, none_emit.2, List.append_nil, List.append_nil]
    by_cases hy : y = x
    · subst hy
      refine step_put (s := s) gv fd (ws.map (fun w => (w.1, Act.write y c w.2))) rfl (Map.get?_insert_self _ _ _) ?_
      have := EStep.write (evOf s gv fd y) k out _ hk ho hf
      rw [written_writes, (read_writes y y c ws).1, (read_writes y y c ws).2, List.append_nil, Bool.or_false]
      exact this
    · exact step_eq (s := s) gv fd (ws.map (fun w => (w.1, Act.write y c w.2))) rfl (by
          intro e he
          obtain ⟨w, _, rfl⟩ := List.mem_map.1 he
          simpa [exchangeOf] using hy) (by simp only [Map.get?_insert, if_neg hy])
  | promote up hup =>
    rw [none_emit.1, none_emit.2, List.append_nil, List.append_nil]
    cases hk : s.conns.get? x with
    | none =>
      exact step_eq (s := s) gv fd [] (List.append_nil _).symm (by simp) (by rw [get_promote, hk]; rfl)
    | some k =>
      by_cases hu : up k = true
      · refine step_put (s := s) gv fd [] (List.append_nil _).symm (k := some { k with state := .established })
          (by rw [get_promote, hk]; simp [hu]) ?_
        norm_ev
        exact EStep.promote (evOf s gv fd x) k hk (hup k hu)
      · exact step_eq (s := s) gv fd [] (List.append_nil _).symm (by simp) (by rw [get_promote, hk]; simp [hu])
  | shut io y k c hk hs hf hst ho hw =>
    rw [none_emit.1, none_emit.2, List.append_nil, List.append_nil]
    by_cases hy : y = x
    · subst hy
      refine step_put (s := s) gv fd [(io, .fin y c)] rfl (Map.get?_insert_self _ _ _) ?_
      norm_ev
      exact EStep.shut (evOf s gv fd y) k hk hf hst ho
    · exact step_eq (s := s) gv fd [(io, .fin y c)] rfl (by simpa [exchangeOf] using hy)
        (by simp only [Map.get?_insert, if_neg hy])
  | progress y k mark deadline hk hst hm =>
    rw [none_emit.1, none_emit.2, List.append_nil, List.append_nil]
    by_cases hy : y = x
    · subst hy
      refine step_put (s := s) gv fd [] (List.append_nil _).symm (Map.get?_insert_self _ _ _) ?_
      norm_ev
      exact EStep.progress (evOf s gv fd y) k mark deadline hk hst hm
    · exact step_eq (s := s) gv fd [] (List.append_nil _).symm (by simp) (by simp only [Map.get?_insert, if_neg hy])
  | reap io io' c d a hd ha hw =>
    rw [none_emit.1, none_emit.2, List.append_nil, List.append_nil]
    exact step_eq (s := s) gv fd [(io, a), (io', .free c)] rfl (by rcases ha with rfl | rfl <;> simp [exchangeOf]) rfl
end

/-- What holds of an exchange in the engine. -/
structure Pipe (v : EV A C) : Prop where
  live : ∀ k, v.k = some k → v.wr ++ k.out.flatten = written v.gv
  dead : v.k = none → v.wr <+: written v.gv
  fin : v.fin = true → downs v.gv ≠ [] ∧ v.wr = written v.gv
  half : ∀ k, v.k = some k → (k.state = .halfClosed ↔ v.fin = true)
  dry : ∀ k, v.k = some k → k.state = .halfClosed → k.out = []
  want : ∀ k, v.k = some k → k.finPending = true → .shutdown ∈ downs v.gv
  clos : ∀ k, v.k = some k → k.state = .closing → .close ∈ downs v.gv
  calm : ∀ k, v.k = some k → k.state ≠ .closing → .close ∉ downs v.gv ∧ .abort ∉ downs v.gv
  sock : ∀ k, v.k = some k → (k.socket = none ↔ k.state = .pendingDial)
  eof : (v.rd.filter Prod.snd).length ≤ 1
  eofk : ∀ k, v.k = some k → k.eofDelivered = false → v.rd.filter Prod.snd = []
  same : v.rd = v.fd

theorem Pipe.none : Pipe ({} : EV A C) := by constructor <;> simp [written]

theorem Pipe.step {v v' : EV A C} (h : Pipe v) (hs : EStep v v')
    (hq : ∀ b, v'.gv = v.gv ++ [.bytes b] → downs v.gv = []) : Pipe v' := by
  cases hs with
  | refl => exact h
  | accept c peer => constructor <;> simp [written, downs]
  | connect peer sid => constructor <;> simp [written, downs]
  | dialOk _ k c hk hst =>
    have hnf : v.fin = false := by
      have := h.half k hk
      rw [hst] at this
      cases hf : v.fin with
      | false => rfl
      | true => exact absurd (this.2 hf) (by simp)
    refine ⟨?_, fun h => (by cases h), h.fin, ?_, ?_, ?_, ?_, ?_, ?_, h.eof, ?_, h.same⟩ <;> rintro k' ⟨⟩
    · exact h.live k hk
    · simp [hnf]
    · intro h; cases h
    · exact h.want k hk
    · intro h; cases h
    · intro _; exact h.calm k hk (by rw [hst]; simp)
    · simp
    · exact h.eofk k hk
  | dialGone _ k hk hst =>
    exact ⟨fun k h => (by cases h), fun _ => ⟨_, h.live k hk⟩, h.fin, fun k h => (by cases h), fun k h => (by cases h),
      fun k h => (by cases h), fun k h => (by cases h), fun k h => (by cases h), fun k h => (by cases h), h.eof,
      fun k h => (by cases h), h.same⟩
  | downNone _ t hk =>
    have hno : ∀ k, v.k = some k → False := fun k h => by rw [hk] at h; cases h
    refine ⟨fun k h => (hno k h).elim, fun _ => ?_, fun hf => ?_, fun k h => (hno k h).elim, fun k h => (hno k h).elim,
      fun k h => (hno k h).elim, fun k h => (hno k h).elim, fun k h => (hno k h).elim, fun k h => (hno k h).elim, h.eof,
      fun k h => (hno k h).elim, h.same⟩
    · simpa [written_append, written] using h.dead hk
    · refine ⟨by simp [downs_append, downs], ?_⟩
      simpa [written_append, written] using (h.fin hf).2
  | shutdown _ k hk =>
    refine ⟨?_, fun h => (by cases h), fun hf => ⟨by simp [downs_append, downs], ?_⟩, ?_, ?_, ?_, ?_, ?_, ?_, h.eof, ?_, h.same⟩
    · rintro k' ⟨⟩; simpa [written_append, written] using h.live k hk
    · simpa [written_append, written] using (h.fin hf).2
    · rintro k' ⟨⟩; exact h.half k hk
    · rintro k' ⟨⟩; exact h.dry k hk
    · rintro k' ⟨⟩ _; simp [downs_append, downs]
    · rintro k' ⟨⟩ hc; simp [downs_append, h.clos k hk hc]
    · rintro k' ⟨⟩ hc; simpa [downs_append, downs] using h.calm k hk hc
    · rintro k' ⟨⟩; exact h.sock k hk
    · rintro k' ⟨⟩; exact h.eofk k hk
  | closing _ k mark deadline hk hh hs =>
    have hnf : v.fin = false := by
      cases hf : v.fin with
      | false => rfl
      | true => exact absurd ((h.half k hk).2 hf) hh
    refine ⟨?_, fun h => (by cases h), fun hf => (by simp only [hnf] at hf; cases hf), ?_, ?_, ?_, ?_, ?_, ?_, h.eof, ?_, h.same⟩
    · rintro k' ⟨⟩; simpa [written_append, written] using h.live k hk
    · rintro k' ⟨⟩; simp [hnf]
    · rintro k' ⟨⟩ hc; cases hc
    · rintro k' ⟨⟩ hc; cases hc
    · rintro k' ⟨⟩ hc; simp [downs_append, downs]
    · rintro k' ⟨⟩ hc; exact absurd rfl hc
    · rintro k' ⟨⟩; simpa using hs
    · rintro k' ⟨⟩; exact h.eofk k hk
  | torn _ k t hk ht =>
    refine ⟨fun k h => (by cases h), fun _ => ?_, fun hf => ⟨by simp [downs_append, downs], ?_⟩, fun k h => (by cases h), fun k h => (by cases h),
      fun k h => (by cases h), fun k h => (by cases h), fun k h => (by cases h), fun k h => (by cases h), h.eof, fun k h => (by cases h), h.same⟩
    · simp only [written_append, written, List.append_nil]; exact ⟨_, h.live k hk⟩
    · simpa [written_append, written] using (h.fin hf).2
  | tornShut _ k hk hz =>
    have hw : v.wr = written v.gv := by have := h.live k hk; rwa [outBytes_zero hz, List.append_nil] at this
    refine ⟨fun k h => (by cases h), fun _ => ?_, fun hf => ⟨by simp [downs_append, downs], ?_⟩, fun k h => (by cases h), fun k h => (by cases h),
      fun k h => (by cases h), fun k h => (by cases h), fun k h => (by cases h), fun k h => (by cases h), h.eof, fun k h => (by cases h), h.same⟩
    · simp only [written_append, written, List.append_nil]; rw [hw]
    · simp only [written_append, written, List.append_nil]; exact hw
  | wound _ k hk hc hz =>
    have hw : v.wr = written v.gv := by have := h.live k hk; rwa [outBytes_zero hz, List.append_nil] at this
    exact ⟨fun k h => (by cases h), fun _ => (by simp only []; rw [hw]),
      fun hf => ⟨List.ne_nil_of_mem (h.clos k hk hc), hw⟩, fun k h => (by cases h), fun k h => (by cases h),
      fun k h => (by cases h), fun k h => (by cases h), fun k h => (by cases h), fun k h => (by cases h), h.eof, fun k h => (by cases h), h.same⟩
  | dropped _ k hk hc =>
    exact ⟨fun k h => (by cases h), fun _ => ⟨_, h.live k hk⟩, h.fin, fun k h => (by cases h), fun k h => (by cases h),
      fun k h => (by cases h), fun k h => (by cases h), fun k h => (by cases h), fun k h => (by cases h), h.eof,
      fun k h => (by cases h), h.same⟩
  | fetch _ k b hk =>
    have hd := hq b rfl
    have hnf : v.fin = false := by
      cases hf : v.fin with
      | false => rfl
      | true => exact absurd hd (h.fin hf).1
    refine ⟨?_, fun h => (by cases h), fun hf => (by simp only [hnf] at hf; cases hf), ?_, ?_, ?_, ?_, ?_, ?_, h.eof, ?_, h.same⟩
    · rintro k' ⟨⟩; simp [written_append, written, ← h.live k hk]
    · rintro k' ⟨⟩; exact h.half k hk
    · rintro k' ⟨⟩ hc; have := (h.half k hk).1 hc; rw [hnf] at this; cases this
    · rintro k' ⟨⟩ hc; simpa [downs_append, downs] using h.want k hk hc
    · rintro k' ⟨⟩ hc; simpa [downs_append, downs] using h.clos k hk hc
    · rintro k' ⟨⟩ hc; simpa [downs_append, downs] using h.calm k hk hc
    · rintro k' ⟨⟩; exact h.sock k hk
    · rintro k' ⟨⟩; exact h.eofk k hk
  | lost _ b hk =>
    have hd := hq b rfl
    have hno : ∀ k, v.k = some k → False := fun k h => by rw [hk] at h; cases h
    refine ⟨fun k h => (hno k h).elim, fun _ => ?_, fun hf => ?_, fun k h => (hno k h).elim, fun k h => (hno k h).elim,
      fun k h => (hno k h).elim, fun k h => (hno k h).elim, fun k h => (hno k h).elim, fun k h => (hno k h).elim, h.eof,
      fun k h => (hno k h).elim, h.same⟩
    · simp only [written_append]; exact (h.dead hk).trans (List.prefix_append _ _)
    · exact absurd hd (h.fin hf).1
  | read _ k b hk =>
    exact ⟨h.live, h.dead, h.fin, h.half, h.dry, h.want, h.clos, h.calm, h.sock, by simpa using h.eof,
      fun k' hk' he => by simpa using h.eofk k' hk' he, by simp [h.same]⟩
  | eof _ k hk he =>
    have h0 := h.eofk k hk he
    refine ⟨?_, fun h => (by cases h), h.fin, ?_, ?_, ?_, ?_, ?_, ?_, by simp [h0], ?_, by simp [h.same]⟩ <;> rintro k' ⟨⟩
    · exact h.live k hk
    · exact h.half k hk
    · exact h.dry k hk
    · exact h.want k hk
    · exact h.clos k hk
    · exact h.calm k hk
    · exact h.sock k hk
    · intro h; cases h
  | write _ k out w hk ho hw =>
    have hne : k.state ≠ .halfClosed := fun e => ho (h.dry k hk e)
    have hnf : v.fin = false := by
      cases hf : v.fin with
      | false => rfl
      | true => exact absurd ((h.half k hk).2 hf) hne
    refine ⟨?_, fun h => (by cases h), fun hf => (by simp only [hnf] at hf; cases hf), ?_, ?_, ?_, ?_, ?_, ?_, h.eof, ?_, h.same⟩ <;> rintro k' ⟨⟩
    · simp only [List.append_assoc, ← hw]; exact h.live k hk
    · exact h.half k hk
    · exact fun hc => absurd hc hne
    · exact h.want k hk
    · exact h.clos k hk
    · exact h.calm k hk
    · exact h.sock k hk
    · exact h.eofk k hk
  | promote _ k hk hst =>
    have hnf : v.fin = false := by
      cases hf : v.fin with
      | false => rfl
      | true => exact absurd ((h.half k hk).2 hf) (by rw [hst]; simp)
    refine ⟨?_, fun h => (by cases h), h.fin, ?_, ?_, ?_, ?_, ?_, ?_, h.eof, ?_, h.same⟩ <;> rintro k' ⟨⟩
    · exact h.live k hk
    · simp [hnf]
    · intro h; cases h
    · exact h.want k hk
    · intro h; cases h
    · intro _; exact h.calm k hk (by rw [hst]; simp)
    · have := h.sock k hk; rw [hst] at this; simpa using this
    · exact h.eofk k hk
  | shut _ k hk hf hst ho =>
    have hw : v.wr = written v.gv := by have := h.live k hk; rwa [ho, List.flatten_nil, List.append_nil] at this
    refine ⟨?_, fun h => (by cases h), fun _ => ⟨List.ne_nil_of_mem (h.want k hk hf), hw⟩, ?_, ?_, ?_, ?_, ?_, ?_, h.eof, ?_, h.same⟩ <;> rintro k' ⟨⟩
    · exact h.live k hk
    · simp
    · intro _; exact ho
    · intro h; cases h
    · intro h; cases h
    · intro _; exact h.calm k hk (by rw [hst]; simp)
    · have := h.sock k hk; rw [hst] at this; simpa using this
    · exact h.eofk k hk
  | progress _ k mark deadline hk hst =>
    refine ⟨?_, fun h => (by cases h), h.fin, ?_, ?_, ?_, ?_, ?_, ?_, h.eof, ?_, h.same⟩ <;> rintro k' ⟨⟩
    · exact h.live k hk
    · exact h.half k hk
    · exact h.dry k hk
    · exact h.want k hk
    · exact h.clos k hk
    · exact h.calm k hk
    · exact h.sock k hk
    · exact h.eofk k hk

section
variable [DecidableEq I] [DecidableEq A] [DecidableEq C]
variable {cfg : Cfg I A} {env : Env I A} {X : XCfg} {T : TEnv} {E : EEnv S C A}
variable {e0 : Ep I A} {cmp0 : CmpOptions} {io0 : S} {handles : List C} {listener : Option C}

/-- The exchange, in the engine. -/
def ev (g : Engine I A C S) (x : Nat) : EV A C := evOf (gear g) (given g x) (inputGiven x g.hist) x

/-- What was fed into an exchange was read, and an exchange without reads was fed nothing. -/
theorem fresh {t0 : Nat} (hnew : Ep.tryNew cfg env t0 = .ok e0) {g : Engine I A C S}
    (hr : Reached cfg env X T E e0 cmp0 io0 handles listener g) {x : Nat} (hp : Pipe (ev g x))
    (h : ¬ Settled g x) : ev g x = {} := by
  have hd : ¬ Dealt g x := fun hd => h (begun hnew hr x hd)
  have h1 : g.conns.get? x = none := Decidable.byContradiction (fun h => hd (.inl h))
  have h2 : given g x = [] := by
    cases hg : given g x with
    | nil => rfl
    | cons => exact absurd (.inr (.inl (by rw [hg]; simp))) hd
  have h3 : ∀ e ∈ g.log, exchangeOf e.2 ≠ some x := fun e he hx => hd (.inr (.inr ⟨e, he, hx⟩))
  obtain ⟨h4, h5, h6⟩ := written_none x g.log h3
  have h7 := hp.same
  simp only [ev, evOf, gear, h1, h2, h4, h5, h6] at h7 ⊢
  rw [← h7]

/-- An exchange that is accepted or dialled is new to the engine. -/
theorem fresh_of {t0 : Nat} (hnew : Ep.tryNew cfg env t0 = .ok e0) {g : Engine I A C S}
    (hr : Reached cfg env X T E e0 cmp0 io0 handles listener g) {x : Nat} (hp : Pipe (ev g x)) {o : Option (XOp I A)}
    (h : (∃ op, o.map (fun op => (op, (g.coord.step cfg env X T op).2)) = some (op, .accepted (some x))) ∨
      (∃ op peer sid, o.map (fun op => (op, (g.coord.step cfg env X T op).2)) =
        some (op, .action (some (.connect x peer sid))))) : ev g x = {} := by
  have hns : ¬ Settled g x := by
    intro hst
    rcases h with ⟨op', h⟩ | ⟨op', peer, sid, h⟩
    · cases o with
      | none => cases h
      | some op =>
        simp only [Option.map_some, Option.some.injEq, Prod.mk.injEq] at h
        obtain ⟨rfl, h⟩ := h
        have hop : ∃ peer now, op = .accept peer now := by
          cases op <;> simp [Coord.step] at h ⊢
        obtain ⟨peer, now, rfl⟩ := hop
        simp only [Coord.step, XOut.accepted.injEq] at h
        unfold Coord.accept at h
        simp only [] at h
        split at h
        · cases h
        · split at h
          · cases h
          · simp only [Option.some.injEq] at h
            have := hst.1
            omega
    · cases o with
      | none => cases h
      | some op =>
        simp only [Option.map_some, Option.some.injEq, Prod.mk.injEq] at h
        obtain ⟨rfl, h⟩ := h
        have hop : op = .pollAction := by
          cases op <;> simp [Coord.step] at h ⊢
        subst hop
        simp only [Coord.step, XOut.action.injEq] at h
        unfold Coord.pollAction at h
        split at h
        · next y p s rest hc =>
          simp only [Option.some.injEq, XAction.connect.injEq] at h
          obtain ⟨rfl, rfl, rfl⟩ := h
          have h2 := hst.2
          simp [Coord.view, hc] at h2
        · split at h <;> simp at h
  exact fresh hnew hr hp hns

theorem ev_step {t0 : Nat} (hnew : Ep.tryNew cfg env t0 = .ok e0) {g g' : Engine I A C S}
    (hr : Reached cfg env X T E e0 cmp0 io0 handles listener g) (hm : EMove cfg env X T E g g') {x : Nat}
    (hp : Pipe (ev g x)) : EStep (ev g x) (ev g' x) := by
  obtain ⟨o, ho, hs⟩ := move_eff hm (nodup_moves hr Map.nodup_nil)
  have hg : given g' x = given g x ++ emitted x (o.map (fun op => (op, (g.coord.step cfg env X T op).2))) ∧
      inputGiven x g'.hist = inputGiven x g.hist ++ fedBy x (o.map (fun op => (op, (g.coord.step cfg env X T op).2))) := by
    cases hs with
    | none _ h2 => rw [given_none h2, h2]; exact ⟨(List.append_nil _).symm, (List.append_nil _).symm⟩
    | one op _ h2 => rw [given_one h2, h2, inputGiven_append]; exact ⟨rfl, rfl⟩
  unfold ev
  rw [hg.1, hg.2]
  exact eff_view ho x _ _ (fun h => fresh_of hnew hr hp h)

theorem pipe {t0 : Nat} (hnew : Ep.tryNew cfg env t0 = .ok e0) {g : Engine I A C S}
    (hr : Reached cfg env X T E e0 cmp0 io0 handles listener g) (x : Nat) : Pipe (ev g x) := by
  induction hr with
  | refl => exact Pipe.none
  | @snoc b c hr hm ih =>
    refine ih.step (ev_step hnew hr hm ih) (fun bs hb => ?_)
    have hd := (drive hnew (EMovesP.snoc hr hm) x).tail
    have hb : given c x = given b x ++ [.bytes bs] := hb
    obtain ⟨pre, h1, h2⟩ := hd
    show downs (given b x) = []
    have h3 : downs (given c x) = downs (given b x) := by rw [hb, downs_append]; simp [downs]
    cases hdn : downs (given b x) with
    | nil => rfl
    | cons t l =>
      exfalso
      rw [h3, hdn, hb] at h1
      have h4 : (given b x ++ [XEmit.bytes bs]).getLast? = (pre ++ (t :: l).map XEmit.down).getLast? := by rw [h1]
      rw [List.getLast?_append, List.getLast?_append] at h4
      have : ((t :: l).map (XEmit.down (A := A))).getLast? = some (.down ((t :: l).getLast (by simp))) := by
        rw [List.getLast?_map, List.getLast?_eq_some_getLast (by simp)]; rfl
      rw [this] at h4
      simp at h4
end

end Engine
end Verif
