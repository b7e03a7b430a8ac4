import Verif.Proof.EngineTrace
import Verif.Spec.Engine
/-
The moves of the engine, seen on what it holds: its sockets, its connections and its log.
-/
namespace Verif

/-- What the engine holds. -/
structure Gear (A C S : Type) where
  pool : List C
  listener : Option C
  conns : Map Nat (Wired A C)
  closing : Map C Nat
  log : List (S × Act A C)

namespace Engine
open Verif Coord Spec
variable {I A C S : Type}

def gear (g : Engine I A C S) : Gear A C S := ⟨g.pool, g.listener, g.conns, g.closing, g.log⟩

/-- A call that concerns no exchange's input or output. -/
def Dull (o : Option (XOp I A × XOut I A)) : Prop :=
  ∀ e, o = some e → (∀ x, emitOf x e.2 = []) ∧ ∀ x b eof now, e.1 ≠ .data x b eof now

/-- A call of `poll_action` that asks to take exchange `x` down. -/
def Asks (t : Teardown) (x : Nat) (o : Option (XOp I A × XOut I A)) : Prop :=
  o = some (.pollAction, .action (some (.down t x)))

/-- The coordinator is told that the dial of exchange `x` failed. -/
def Tells (x : Nat) (o : Option (XOp I A × XOut I A)) : Prop := ∃ now r, o = some (.dialFailed x now, r)

section
variable [DecidableEq C] (E : EEnv S C A)

/-- One move, on what the engine holds, and the call to the coordinator it makes. -/
inductive Eff : Gear A C S → Option (XOp I A × XOut I A) → Gear A C S → Prop
  | same (s : Gear A C S) (o) : Dull o → Eff s o s
  | datagram (s : Gear A C S) (io : S) (dst : A) (b : Bytes) : Warranted E (io, .datagram dst b) →
      Eff s none { s with log := s.log ++ [(io, .datagram dst b)] }
  | listen (s : Gear A C S) (io : S) (c : C) (pool : List C) : s.listener = none → s.pool.Perm (c :: pool) →
      Warranted E (io, .listen c) → Eff s none { s with pool := pool, listener := some c, log := s.log ++ [(io, .listen c)] }
  | refuse (s : Gear A C S) (o) (io io' : S) (c : C) : s.listener = some c → Dull o →
      Eff s o { s with pool := s.pool ++ [c], listener := none, log := s.log ++ [(io, .abort c), (io', .free c)] }
  | accept (s : Gear A C S) (io : S) (c : C) (peer : A) (x now : Nat) : s.listener = some c →
      Warranted E (io, .accept x c peer) →
      Eff s (some (.accept peer now, .accepted (some x)))
        { s with listener := none, conns := s.conns.insert x { peer, socket := some c, state := .established }
                 log := s.log ++ [(io, .accept x c peer)] }
  | connect (s : Gear A C S) (x : Nat) (peer : A) (sid : Nat) :
      Eff s (some (.pollAction, .action (some (.connect x peer sid))))
        { s with conns := s.conns.insert x { peer, socket := none, state := .pendingDial } }
  | dialOk (s : Gear A C S) (io : S) (x : Nat) (k : Wired A C) (c : C) (pool : List C) : s.conns.get? x = some k →
      k.state = .pendingDial → s.pool.Perm (c :: pool) → Warranted E (io, .connect x c k.peer true) →
      Eff s none { s with pool := pool, conns := s.conns.insert x { k with socket := some c, state := .dialing }
                          log := s.log ++ [(io, .connect x c k.peer true)] }
  | dialRefused (s : Gear A C S) (o) (io io' : S) (x : Nat) (k : Wired A C) (c : C) (pool : List C) :
      s.conns.get? x = some k → k.state = .pendingDial → s.pool.Perm (c :: pool) → Dull o → Tells x o →
      Eff s o { s with pool := pool ++ [c], conns := s.conns.erase x
                       log := s.log ++ [(io, .abort c), (io', .free c)] }
  | dialError (s : Gear A C S) (o) (io io' io'' : S) (x : Nat) (k : Wired A C) (c : C) (pool : List C) :
      s.conns.get? x = some k → k.state = .pendingDial → s.pool.Perm (c :: pool) →
      Warranted E (io, .connect x c k.peer false) → Dull o → Tells x o →
      Eff s o { s with pool := pool ++ [c], conns := s.conns.erase x
                       log := s.log ++ [(io, .connect x c k.peer false), (io', .abort c), (io'', .free c)] }
  | downNone (s : Gear A C S) (o) (t : Teardown) (x : Nat) : s.conns.get? x = none → Asks t x o → Eff s o s
  | shutdown (s : Gear A C S) (o) (x : Nat) (k : Wired A C) : s.conns.get? x = some k → Asks .shutdown x o →
      Eff s o { s with conns := s.conns.insert x { k with finPending := true } }
  | closing (s : Gear A C S) (o) (x : Nat) (k : Wired A C) (c : C) (mark deadline : Nat) : s.conns.get? x = some k →
      k.socket = some c → k.state ≠ .halfClosed → Asks .close x o →
      Eff s o { s with conns := s.conns.insert x { k with
          state := .closing, closeDeadline := some deadline, drainMark := mark, finPending := false } }
  | forget (s : Gear A C S) (o) (x : Nat) (k : Wired A C) : s.conns.get? x = some k → k.socket = none →
      (Asks .close x o ∨ Asks .abort x o) → Eff s o { s with conns := s.conns.erase x }
  | gone (s : Gear A C S) (o) (io io' : S) (x : Nat) (k : Wired A C) (c : C) : s.conns.get? x = some k →
      k.socket = some c → Asks .close x o → Warranted E (io, .gone c) →
      Eff s o { s with pool := s.pool ++ [c], conns := s.conns.erase x
                       log := s.log ++ [(io, .gone c), (io', .free c)] }
  | reset (s : Gear A C S) (o) (io io' : S) (x : Nat) (k : Wired A C) (c : C) : s.conns.get? x = some k →
      k.socket = some c → (Asks .close x o ∨ Asks .abort x o ∨ (o = none ∧ k.state = .closing)) →
      Eff s o { s with pool := s.pool ++ [c], conns := s.conns.erase x
                       log := s.log ++ [(io, .abort c), (io', .free c)] }
  | windShut (s : Gear A C S) (o) (x : Nat) (k : Wired A C) (c : C) (deadline : Nat) : s.conns.get? x = some k →
      k.socket = some c → k.state = .halfClosed → Asks .close x o →
      Eff s o { s with conns := s.conns.erase x, closing := s.closing.insert c deadline }
  | windDown (s : Gear A C S) (o) (io : S) (x : Nat) (k : Wired A C) (c : C) (deadline : Nat) :
      s.conns.get? x = some k → k.socket = some c → k.state ≠ .halfClosed → k.outBytes = 0 →
      (Asks .close x o ∨ (o = none ∧ k.state = .closing)) → Warranted E (io, .fin x c) →
      Eff s o { s with conns := s.conns.erase x, closing := s.closing.insert c deadline
                       log := s.log ++ [(io, .fin x c)] }
  | fetch (s : Gear A C S) (x : Nat) (peer : A) (b : Bytes) (k : Wired A C) : s.conns.get? x = some k →
      Eff s (some (.pollTransport, .bytes (some (x, peer, b)))) { s with conns := s.conns.insert x { k with out := k.out ++ [b] } }
  | lost (s : Gear A C S) (io : S) (x : Nat) (peer : A) (b : Bytes) : s.conns.get? x = none →
      Eff s (some (.pollTransport, .bytes (some (x, peer, b)))) { s with log := s.log ++ [(io, .lost x b)] }
  | read (s : Gear A C S) (io : S) (x : Nat) (k : Wired A C) (c : C) (b : Bytes) (now : Nat) (r : XOut I A) :
      s.conns.get? x = some k → k.socket = some c → Warranted E (io, .read x c b) → (∀ y, emitOf y r = []) →
      Eff s (some (.data x b false now, r)) { s with log := s.log ++ [(io, .read x c b)] }
  | eof (s : Gear A C S) (io : S) (x : Nat) (k : Wired A C) (c : C) (now : Nat) (r : XOut I A) :
      s.conns.get? x = some k → k.socket = some c → k.eofDelivered = false → Warranted E (io, .eof x c) →
      (∀ y, emitOf y r = []) →
      Eff s (some (.data x [] true now, r))
        { s with conns := s.conns.insert x { k with eofDelivered := true }, log := s.log ++ [(io, .eof x c)] }
  | write (s : Gear A C S) (x : Nat) (k : Wired A C) (c : C) (out : List Bytes) (ws : List (S × Bytes)) :
      s.conns.get? x = some k → k.socket = some c → k.out ≠ [] →
      k.out.flatten = (ws.map Prod.snd).flatten ++ out.flatten →
      (∀ w ∈ ws, Warranted E (w.1, .write x c w.2)) →
      Eff s none { s with conns := s.conns.insert x { k with out := out }
                          log := s.log ++ ws.map (fun w => (w.1, Act.write x c w.2)) }
  | promote (s : Gear A C S) (up : Wired A C → Bool) : (∀ k, up k = true → k.state = .dialing) →
      Eff s none { s with conns := s.conns.map (fun e => if up e.2 then (e.1, { e.2 with state := .established }) else e) }
  | shut (s : Gear A C S) (io : S) (x : Nat) (k : Wired A C) (c : C) : s.conns.get? x = some k → k.socket = some c →
      k.finPending = true → k.state = .established → k.out = [] → Warranted E (io, .fin x c) →
      Eff s none { s with conns := s.conns.insert x { k with finPending := false, state := .halfClosed }
                          log := s.log ++ [(io, .fin x c)] }
  | progress (s : Gear A C S) (x : Nat) (k : Wired A C) (mark deadline : Nat) : s.conns.get? x = some k →
      k.state = .closing → mark < k.drainMark →
      Eff s none { s with conns := s.conns.insert x { k with drainMark := mark, closeDeadline := some deadline } }
  | reap (s : Gear A C S) (io io' : S) (c : C) (d : Nat) (a : Act A C) : s.closing.get? c = some d →
      (a = .abort c ∨ a = .gone c) → Warranted E (io, a) →
      Eff s none { s with pool := s.pool ++ [c], closing := s.closing.erase c, log := s.log ++ [(io, a), (io', .free c)] }
end

variable [DecidableEq I] [DecidableEq A] [DecidableEq C]
variable {cfg : Cfg I A} {env : Env I A} {X : XCfg} {T : TEnv} {E : EEnv S C A}

/-- The move, on what the engine holds, and the call it makes. -/
def Move1 (cfg : Cfg I A) (env : Env I A) (X : XCfg) (T : TEnv) (E : EEnv S C A) (g g' : Engine I A C S) : Prop :=
  ∃ o : Option (XOp I A), Eff E (gear g) (o.map (fun op => (op, (g.coord.step cfg env X T op).2))) (gear g') ∧
    HStep cfg env X T g g' o

/-- Bytes are taken only when no dial is queued. -/
theorem fetch_late {g g' : Engine I A C S} (hm : EMove cfg env X T E g g') {x : Nat} {peer : A} {b : Bytes}
    (h : g'.hist = g.hist ++ [(.pollTransport, .bytes (some (x, peer, b)))]) : g.coord.connects = [] := by
  obtain ⟨o, ho⟩ := move_hist hm
  have hl : o = some .pollTransport ∧ (g.coord.step cfg env X T .pollTransport).2 = .bytes (some (x, peer, b)) := by
    cases ho with
    | none _ h2 => rw [h2] at h; simp at h
    | one op _ h2 =>
      rw [h2] at h
      have := List.append_cancel_left h
      simp only [List.cons.injEq, Prod.mk.injEq, and_true] at this
      obtain ⟨rfl, h3⟩ := this
      exact ⟨rfl, h3⟩
  cases hm with
  | aside s => rw [s.hist] at h; simp at h
  | reseed => simp at h
  | call op hp =>
    have : op = .pollTransport := by
      have := List.append_cancel_left h
      simp only [List.cons.injEq, Prod.mk.injEq, and_true] at this
      exact this.1
    subst this; cases hp
  | event => rw [(event_same g).2.1] at h; have := List.append_cancel_left h; simp at this
  | fetch _ _ _ _ hc => exact hc
  | lost _ _ _ hc => exact hc
  | fetchNone h2 =>
    have h2 : (g.coord.step cfg env X T .pollTransport).2 = .bytes none := h2
    rw [h2] at hl; cases hl.2
  | close x now => rw [(teardown_coord _ x now).2] at h; have := List.append_cancel_left h; simp at this
  | abort x => rw [(abortExchange_coord _ x).2] at h; have := List.append_cancel_left h; simp at this
  | settle io now x k o => rw [(settle_coord g io now _).2] at h; simp at h
  | reap c now => rw [(reapOne_coord g now c).2] at h; simp at h
  | datagram => simp [note] at h
  | listen => simp [note] at h
  | refuse => simp [note, Engine.abort, give] at h
  | dialOk => simp [note] at h
  | write => simp at h
  | promote => simp [promoteEstablished] at h
  | shut => simp [Engine.close] at h
  | packet => have := List.append_cancel_left h; simp at this
  | decline => have := List.append_cancel_left h; simp at this
  | accept => have := List.append_cancel_left h; simp at this
  | connect => have := List.append_cancel_left h; simp at this
  | dialRefused => have := List.append_cancel_left h; simp at this
  | dialError => have := List.append_cancel_left h; simp at this
  | shutdown => have := List.append_cancel_left h; simp at this
  | actionNone => have := List.append_cancel_left h; simp at this
  | read => have := List.append_cancel_left h; simp at this
  | eof => have := List.append_cancel_left h; simp at this

theorem dull_of (op : XOp I A) (r : XOut I A) (h : ∀ x, emitOf x r = []) (h2 : ∀ x b eof now, op ≠ .data x b eof now) :
    Dull (some (op, r)) := by
  intro e he; cases he; exact ⟨h, h2⟩

theorem dull_none : Dull (none : Option (XOp I A × XOut I A)) := by intro e he; cases he

theorem emit_calm (c : Coord I A) (op : XOp I A) (h1 : op ≠ .pollTransport) (h2 : op ≠ .pollAction) (x : Nat) :
    emitOf x (c.step cfg env X T op).2 = [] := emit_keep c x op h1 h2

theorem plain_dull (c : Coord I A) (op : XOp I A) (h : Plain E op) : Dull (some (op, (c.step cfg env X T op).2)) := by
  refine dull_of _ _ (fun x => emit_calm c op ?_ ?_ x) ?_
  · rintro rfl; cases h
  · rintro rfl; cases h
  · rintro x b eof now rfl; cases h

theorem writeOut_spec (c : C) (io : S) (l : List Bytes) :
    l.flatten = ((writeOut E c io l).2.2.map Prod.snd).flatten ++ (writeOut E c io l).2.1.flatten ∧
      ∀ w ∈ (writeOut E c io l).2.2, ∃ piece : Bytes, w.2 = piece.take (E.io.send w.1 c piece).2 := by
  induction l generalizing io with
  | nil => exact ⟨rfl, fun w hw => by cases hw⟩
  | cons b l ih =>
    unfold writeOut
    split
    · next h =>
      obtain ⟨h1, h2⟩ := ih (E.io.send io c b).1
      refine ⟨?_, fun w hw => ?_⟩
      · simp only [List.flatten_cons, List.map_cons, List.append_assoc, ← h1]
      · rcases List.mem_cons.1 hw with rfl | hw
        · exact ⟨b, (List.take_of_length_le h).symm⟩
        · exact h2 w hw
    · refine ⟨?_, fun w hw => ?_⟩
      · simp only [List.flatten_cons, List.map_cons, List.map_nil, List.flatten_nil, List.append_nil, ← List.append_assoc,
          List.take_append_drop]
      · rcases List.mem_singleton.1 hw with rfl
        exact ⟨b, rfl⟩

theorem teardown_eff (g : Engine I A C S) (x now : Nat) {o : Option (XOp I A × XOut I A)} (h : Asks .close x o) :
    Eff E (gear g) o (gear (g.teardown E x now)) := by
  unfold teardown
  split
  · next hx => exact .downNone _ _ _ x hx h
  · next k hk =>
    split
    · next hs => exact .forget (gear g) o x k hk hs (.inl h)
    · next c hs =>
      split
      · next ho => 
        have ho : E.io.isOpen g.io c = false := by simpa using ho
        simp only [gear, give, note, List.append_assoc, List.singleton_append]
        exact .gone (gear g) o g.io g.io x k c hk hs h ho
      · split
        · next hst => exact .windShut (gear g) o x k c _ hk hs hst h
        · next hst =>
          split
          · exact .closing (gear g) o x k c _ _ hk hs hst h
          · next hq =>
            split
            · next hm =>
              have hq : k.out = [] ∧ E.io.sendQueue g.io c = 0 := by
                constructor
                · apply Decidable.byContradiction; intro h1; exact hq ⟨hm, .inl h1⟩
                · apply Decidable.byContradiction; intro h1; exact hq ⟨hm, .inr h1⟩
              exact .windDown (gear g) o g.io x k c _ hk hs hst (by simp [Wired.outBytes, hq.1]) (.inl h) hq.2
            · simp only [gear, give, note, Engine.abort, List.append_assoc, List.singleton_append]
              exact .reset (gear g) o _ _ x k c hk hs (.inl h)

theorem abortExchange_eff (g : Engine I A C S) (x : Nat) {o : Option (XOp I A × XOut I A)} (h : Asks .abort x o) :
    Eff E (gear g) o (gear (g.abortExchange E x)) := by
  unfold abortExchange
  split
  · next hx => exact .downNone _ _ _ x hx h
  · next k hk =>
    simp only []
    split
    · next hs => exact .forget (gear g) o x k hk hs (.inr h)
    · next c hs =>
      simp only [gear, give, note, Engine.abort, List.append_assoc, List.singleton_append]
      exact .reset (gear g) o _ _ x k c hk hs (.inr (.inl h))

theorem move_eff {g g' : Engine I A C S} (hm : EMove cfg env X T E g g') (hn : g.conns.NodupKeys) :
    Move1 cfg env X T E g g' := by
  cases hm with
  | aside s =>
    refine ⟨none, ?_, .none s.coord s.hist⟩
    have : gear g' = gear g := by simp only [gear, s.pool, s.listener, s.conns, s.closing, s.log]
    rw [this]; exact .same _ _ dull_none
  | reseed => exact ⟨none, .same _ _ dull_none, .none rfl rfl⟩
  | call op hp => exact ⟨some op, .same _ _ (plain_dull _ op hp), .one op rfl rfl⟩
  | packet src m now _ =>
    exact ⟨some _, .same _ _ (dull_of _ _ (fun x => emit_calm _ _ (by simp) (by simp) x) (by simp)), .one _ rfl rfl⟩
  | event =>
    refine ⟨some .pollEvent, ?_, .one .pollEvent (event_same g).1 (event_same g).2.1⟩
    have h := event_same (cfg := cfg) (env := env) (X := X) (T := T) (E := E) g
    have : gear (g.act cfg env X T E .pollEvent).1 = gear g := by
      simp only [gear, h.2.2.1, h.2.2.2.1, h.2.2.2.2.1, h.2.2.2.2.2.1, h.2.2.2.2.2.2]
    rw [this]; exact .same _ _ (dull_of _ _ (fun x => emit_calm _ _ (by simp) (by simp) x) (by simp))
  | datagram _ dst _ _ b _ _ _ h1 h2 => exact ⟨none, .datagram (gear g) g.io dst b ⟨h2, h1⟩, .none rfl rfl⟩
  | listen c pool h1 h2 =>
    have h3 := takeReady_some h2
    exact ⟨none, .listen (gear g) g.io c pool h1 h3.2 h3.1, .none rfl rfl⟩
  | refuse c peer h1 h2 h3 =>
    refine ⟨none, ?_, .none rfl rfl⟩
    simp only [gear, give, note, Engine.abort, List.append_assoc, List.singleton_append]
    exact .refuse (gear g) _ _ _ c h1 dull_none
  | decline c peer now h1 h2 h3 h4 =>
    refine ⟨some (.accept peer now), ?_, .one _ rfl rfl⟩
    simp only [gear, give, note, Engine.abort, call, List.append_assoc, List.singleton_append]
    exact .refuse (gear g) _ _ _ c h1 (dull_of _ _ (fun x => emit_calm _ _ (by simp) (by simp) x) (by simp))
  | accept c peer x now h1 h2 h3 h4 =>
    refine ⟨some (.accept peer now), ?_, .one _ rfl rfl⟩
    have h4 : (g.coord.step cfg env X T (.accept peer now)).2 = .accepted (some x) := h4
    simp only [Option.map_some, h4]
    exact .accept (gear g) g.io c peer x now h1 ⟨h2, h3⟩
  | connect x peer sid h =>
    refine ⟨some .pollAction, ?_, .one _ rfl rfl⟩
    have h : (g.coord.step cfg env X T .pollAction).2 = .action (some (.connect x peer sid)) := h
    simp only [Option.map_some, h]
    exact .connect (gear g) x peer sid
  | dialOk x k c pool hk hs hp hb hr hc =>
    have h3 := takeReady_some hp
    have e : 49152 + x % 2 ^ 16 % 16384 = 49152 + x % 16384 := by omega
    exact ⟨none, .dialOk (gear g) g.io x k c pool hk hs h3.2 ⟨h3.1, hb, hr, by rw [← e]; exact hc⟩, .none rfl rfl⟩
  | dialRefused x k c pool now hk hs hp hb =>
    have h3 := takeReady_some hp
    refine ⟨some (.dialFailed x now), ?_, .one _ rfl rfl⟩
    simp only [gear, give, note, Engine.abort, call, List.append_assoc, List.singleton_append]
    exact .dialRefused (gear g) _ _ _ x k c pool hk hs h3.2
      (dull_of _ _ (fun x => emit_calm _ _ (by simp) (by simp) x) (by simp)) ⟨_, _, rfl⟩
  | dialError x k c pool now hk hs hp hb hr hc =>
    have h3 := takeReady_some hp
    have e : 49152 + x % 2 ^ 16 % 16384 = 49152 + x % 16384 := by omega
    refine ⟨some (.dialFailed x now), ?_, .one _ rfl rfl⟩
    simp only [gear, give, note, Engine.abort, call, List.append_assoc, List.singleton_append]
    exact .dialError (gear g) _ g.io _ _ x k c pool hk hs h3.2 ⟨h3.1, hb, hr, by rw [← e]; exact hc⟩
      (dull_of _ _ (fun x => emit_calm _ _ (by simp) (by simp) x) (by simp)) ⟨_, _, rfl⟩
  | shutdown x h =>
    refine ⟨some .pollAction, ?_, .one _ rfl rfl⟩
    have h : (g.coord.step cfg env X T .pollAction).2 = .action (some (.down .shutdown x)) := h
    have ha : Asks .shutdown x (some (XOp.pollAction, (g.coord.step cfg env X T .pollAction).2)) := by rw [h]; rfl
    cases hx : g.conns.get? x with
    | none =>
      have e : g.conns.modify x (fun k => { k with finPending := true }) = g.conns := by
        have hx := Map.get?_eq_none_iff.1 hx
        refine (List.map_congr_left (g := id) fun e he => ?_).trans (List.map_id _)
        have : e.1 ≠ x := fun h => hx (h ▸ List.mem_map_of_mem he)
        simp [this]
      simp only [gear, e]
      exact .downNone (gear g) _ _ x hx ha
    | some k =>
      have e : g.conns.modify x (fun k => { k with finPending := true }) = g.conns.insert x { k with finPending := true } :=
        Map.modify_eq_insert hn _ hx
      simp only [gear, e]
      exact .shutdown (gear g) _ x k hx ha
  | close x now h =>
    refine ⟨some .pollAction, ?_, .one .pollAction (teardown_coord _ x now).1 (teardown_coord _ x now).2⟩
    have h : (g.coord.step cfg env X T .pollAction).2 = .action (some (.down .close x)) := h
    exact teardown_eff (g := (g.call cfg env X T .pollAction).1) x now (by simp only [Option.map_some, h]; rfl)
  | abort x h =>
    refine ⟨some .pollAction, ?_, .one .pollAction (abortExchange_coord _ x).1 (abortExchange_coord _ x).2⟩
    have h : (g.coord.step cfg env X T .pollAction).2 = .action (some (.down .abort x)) := h
    exact abortExchange_eff (g := (g.call cfg env X T .pollAction).1) x (by simp only [Option.map_some, h]; rfl)
  | actionNone h =>
    have h : (g.coord.step cfg env X T .pollAction).2 = .action none := h
    exact ⟨some .pollAction, .same _ _ (dull_of _ _ (fun x => by rw [h]; rfl) (by simp)), .one _ rfl rfl⟩
  | fetch x peer b k hc h hk =>
    refine ⟨some .pollTransport, ?_, .one _ rfl rfl⟩
    have h : (g.coord.step cfg env X T .pollTransport).2 = .bytes (some (x, peer, b)) := h
    simp only [Option.map_some, h]
    exact .fetch (gear g) x peer b k hk
  | lost x peer b hc h hk =>
    refine ⟨some .pollTransport, ?_, .one _ rfl rfl⟩
    have h : (g.coord.step cfg env X T .pollTransport).2 = .bytes (some (x, peer, b)) := h
    simp only [Option.map_some, h]
    exact .lost (gear g) g.io x peer b hk
  | fetchNone h =>
    have h : (g.coord.step cfg env X T .pollTransport).2 = .bytes none := h
    exact ⟨some .pollTransport, .same _ _ (dull_of _ _ (fun x => by rw [h]; rfl) (by simp)), .one _ rfl rfl⟩
  | read x k c now hk hs hb =>
    exact ⟨some (.data x (E.io.recv g.io c).2 false now), .read (gear g) g.io x k c _ now _ hk hs ⟨rfl, hb⟩
      (fun y => emit_calm _ _ (by simp) (by simp) y), .one _ rfl rfl⟩
  | eof x k c now hk hs he hf =>
    exact ⟨some (.data x [] true now), .eof (gear g) g.io x k c now _ hk hs he hf
      (fun y => emit_calm _ _ (by simp) (by simp) y), .one _ rfl rfl⟩
  | write x k c hk hs ho hm =>
    obtain ⟨h1, h2⟩ := writeOut_spec (E := E) c g.io k.out
    exact ⟨none, .write (gear g) x k c _ _ hk hs ho h1 h2, .none rfl rfl⟩
  | promote =>
    refine ⟨none, ?_, .none rfl rfl⟩
    have := Eff.promote (E := E) (I := I) (gear g) (fun k => decide (k.state = .dialing ∧ k.socket.any (E.io.maySend g.io)))
      (fun k hk => (of_decide_eq_true hk).1)
    simp only [decide_eq_true_eq] at this
    exact this
  | shut io x k c hk hs hf =>
    refine ⟨none, ?_, .none rfl rfl⟩
    simp only [finReady, hs, Option.any_some, Bool.and_eq_true, decide_eq_true_eq, List.isEmpty_iff] at hf
    exact .shut (gear g) io x k c hk hs hf.1.1.1 hf.1.1.2 hf.1.2 hf.2.2
  | settle io now x k o hk ho =>
    refine ⟨none, ?_, .none (settle_coord g io now _).1 (settle_coord g io now _).2⟩
    unfold outcome at ho
    split at ho
    · cases ho
    · next hst =>
      have hst : k.state = .closing := by simpa using hst
      have hst2 : k.state ≠ .halfClosed := by rw [hst]; simp
      split at ho
      · cases ho
      · next c hs =>
        simp only [] at ho
        split at ho
        · next hu =>
          cases ho
          exact .windDown (gear g) none io x k c _ hk hs hst2 (by omega) (.inr ⟨rfl, hst⟩)
            (show E.io.sendQueue io c = 0 by omega)
        · split at ho
          · cases ho
            simp only [settle, gear]
            rw [Map.modify_eq_insert hn _ hk]
            exact .progress (gear g) x k _ _ hk hst (by assumption)
          · split at ho
            · cases ho
              simp only [settle, gear, give, note, Engine.abort, List.append_assoc, List.singleton_append]
              exact .reset (gear g) none _ _ x k c hk hs (.inr (.inr ⟨rfl, hst⟩))
            · cases ho
  | reap c now =>
    refine ⟨none, ?_, .none (reapOne_coord g now c).1 (reapOne_coord g now c).2⟩
    unfold reapOne
    split
    · exact .same _ _ dull_none
    · next d hd =>
      split
      · next ho =>
        have ho : E.io.isOpen g.io c = false := by simpa using ho
        simp only [gear, give, note, List.append_assoc, List.singleton_append]
        exact .reap (gear g) _ _ c d _ hd (.inr rfl) ho
      · split
        · simp only [gear, give, note, Engine.abort, List.append_assoc, List.singleton_append]
          exact .reap (gear g) g.io _ c d _ hd (.inl rfl) trivial
        · exact .same _ _ dull_none

end Engine
end Verif
