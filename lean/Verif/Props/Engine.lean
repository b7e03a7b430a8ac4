import Verif.Proof.EngineSeal
import Verif.Proof.EngineKeep
import Verif.Example.Engine
import Verif.Props.Driver
/-
C77-C86: the engine of the embedded driver, on any network stack.
-/
namespace Verif.Props
open Verif Spec Coord Engine
variable {I A C S : Type} [DecidableEq I] [DecidableEq A] [DecidableEq C]
variable {cfg : Cfg I A} {env : Env I A} {X : XCfg} {T : TEnv} {E : EEnv S C A}

/-! ### C77 Sockets are neither lost nor doubled -/

/-- C77. After any history, and whatever the stack does, the sockets the engine holds are exactly those it was given:
each is in the pool, or listening, or serving one connection, or winding down, and in one of these places only. -/
theorem C77_sockets {t0 : Nat} {e0 : Ep I A} (hnew : Ep.tryNew cfg env t0 = .ok e0) (cmp0 cmp : CmpOptions)
    (ring : Option Keyring) (io : S) (handles : List C) (listener : Option C)
    (hH : (handles ++ listener.toList).Nodup) (ops : List (EOp I A C S)) :
    (sockets ((Engine.new cfg env X T e0 cmp0 cmp ring io handles listener).run cfg env X T E ops)).Perm
      (handles ++ listener.toList) := by
  have hb := book hnew hH (run_moves (cfg := cfg) (env := env) (X := X) (T := T) (E := E) e0 cmp0 cmp ring io handles listener ops)
  rw [List.perm_iff_count]
  intro a
  rw [held_sockets]
  exact hb.count a

/-! ### C78 A socket serves one connection at a time -/

/-- C78. What is done with each socket follows the rules: it serves one exchange at a time, it is read and written for
that exchange only, nothing is written once its half was closed, it is put back only after it was reset or found closed,
and nothing is done with it in between; and where the socket is agrees with what it is used for. -/
theorem C78_use {t0 : Nat} {e0 : Ep I A} (hnew : Ep.tryNew cfg env t0 = .ok e0) (cmp0 cmp : CmpOptions)
    (ring : Option Keyring) (io : S) (handles : List C) (listener : Option C)
    (hH : (handles ++ listener.toList).Nodup) (ops : List (EOp I A C S)) (c : C) (hc : c ∈ handles ++ listener.toList) :
    let g := (Engine.new cfg env X T e0 cmp0 cmp ring io handles listener).run cfg env X T E ops
    ∃ u, useAfter c (if listener = some c then .listening else .idle) g.log = some u ∧
      ((u = .idle ∧ c ∈ g.pool) ∨ (u = .listening ∧ g.listener = some c) ∨
       (∃ x k, u = .serving x (decide (k.state = .halfClosed)) ∧ g.conns.get? x = some k ∧ k.socket = some c) ∨
       (∃ x, u = .serving x true ∧ c ∈ g.closing.keys)) := by
  intro g
  have hb := book hnew hH (run_moves (cfg := cfg) (env := env) (X := X) (T := T) (E := E) e0 cmp0 cmp ring io handles listener ops)
  obtain ⟨u, h1, h2⟩ := hb.used c hc
  refine ⟨u, h1, ?_⟩
  rcases h2 with ⟨h, e⟩ | ⟨h, e⟩ | ⟨x, k, h, h', e⟩ | ⟨h, x, e⟩
  · exact .inl ⟨e, h⟩
  · exact .inr (.inl ⟨e, h⟩)
  · exact .inr (.inr (.inl ⟨x, k, e, h, h'⟩))
  · exact .inr (.inr (.inr ⟨x, e, h⟩))

/-- C78. Nothing is done with a socket the engine was not given, and everything it does was warranted by what the stack
said at that moment. -/
theorem C78_warranted {t0 : Nat} {e0 : Ep I A} (hnew : Ep.tryNew cfg env t0 = .ok e0) (cmp0 cmp : CmpOptions)
    (ring : Option Keyring) (io : S) (handles : List C) (listener : Option C)
    (hH : (handles ++ listener.toList).Nodup) (ops : List (EOp I A C S)) :
    ∀ e ∈ ((Engine.new cfg env X T e0 cmp0 cmp ring io handles listener).run cfg env X T E ops).log,
      Warranted E e ∧ ∀ c, handleOf e.2 = some c → c ∈ handles ++ listener.toList := by
  have hb := book hnew hH (run_moves (cfg := cfg) (env := env) (X := X) (T := T) (E := E) e0 cmp0 cmp ring io handles listener ops)
  exact fun e he => ⟨hb.warranted e he, hb.only e he⟩

/-- The join: one socket dials, writes in two pieces, half-closes, reads the answer, and is put back once the stack says
it is closed. In between it is elsewhere. -/
example :
    (Ex.acts (Ex.joined 10)).length = 8 ∧
    Ex.acts (Ex.joined 2) = [.connect 0 2 101 true] ∧
    (Ex.acts (Ex.joined 10)).drop 5 = [.eof 0 2, .gone 2, .free 2] ∧
    (Ex.joined 10).pool = [1, 2] ∧ (Ex.joined 8).pool = [1] ∧ (Ex.joined 8).closing.keys = [2] ∧
    sockets (Ex.joined 8) = [1, 0, 2] ∧ sockets (Ex.joined 6) = [1, 0, 2] ∧
    useAfter 2 .idle (Ex.joined 6).log = some (.serving 0 true) ∧
    useAfter 2 .idle (Ex.joined 4).log = some (.serving 0 false) := by decide +kernel

/-- The engine of the examples is one the theorems speak of. -/
example : Ep.tryNew Ex.cfg Ex.env 0 = .ok Ex.e0 := Ex.e0_ok

/-! ### C79 The bytes of a connection -/

/-- C79. What is written on the connection of an exchange is, at every moment, a beginning of what the coordinator
handed out for it, in order and without gaps. While the connection is held, what is not written yet is queued. -/
theorem C79_written {t0 : Nat} {e0 : Ep I A} (hnew : Ep.tryNew cfg env t0 = .ok e0) (cmp0 cmp : CmpOptions)
    (ring : Option Keyring) (io : S) (handles : List C) (listener : Option C) (ops : List (EOp I A C S)) (x : Nat) :
    let g := (Engine.new cfg env X T e0 cmp0 cmp ring io handles listener).run cfg env X T E ops
    bytesWritten x g.log <+: written (handedTo x g.hist) ∧
      ∀ k, g.conns.get? x = some k → bytesWritten x g.log ++ k.out.flatten = written (handedTo x g.hist) := by
  intro g
  have hp := pipe hnew (run_moves (cfg := cfg) (env := env) (X := X) (T := T) (E := E) e0 cmp0 cmp ring io handles listener ops) x
  refine ⟨?_, fun k hk => hp.live k hk⟩
  cases hk : g.conns.get? x with
  | none => exact hp.dead hk
  | some k => exact ⟨k.out.flatten, hp.live k hk⟩

/-- C79. The sending half of a connection is closed only when the coordinator asked for it, and only after everything it
handed out was written. -/
theorem C79_fin {t0 : Nat} {e0 : Ep I A} (hnew : Ep.tryNew cfg env t0 = .ok e0) (cmp0 cmp : CmpOptions)
    (ring : Option Keyring) (io : S) (handles : List C) (listener : Option C) (ops : List (EOp I A C S)) (x : Nat) :
    let g := (Engine.new cfg env X T e0 cmp0 cmp ring io handles listener).run cfg env X T E ops
    (∃ s c, (s, Act.fin x c) ∈ g.log) →
      (∃ t, .down t ∈ handedTo x g.hist) ∧ bytesWritten x g.log = written (handedTo x g.hist) := by
  intro g ⟨s, c, hf⟩
  have hp := pipe hnew (run_moves (cfg := cfg) (env := env) (X := X) (T := T) (E := E) e0 cmp0 cmp ring io handles listener ops) x
  have : (ev g x).fin = true := by
    simp only [ev, evOf, gear, List.any_eq_true]
    exact ⟨_, hf, by simp [isFin]⟩
  obtain ⟨h1, h2⟩ := hp.fin this
  refine ⟨?_, h2⟩
  cases hd : downs (ev g x).gv with
  | nil => exact absurd hd h1
  | cons t l => exact ⟨t, mem_downs (by rw [show handedTo x g.hist = (ev g x).gv from rfl, hd]; simp)⟩

/-- C79. A half-close the coordinator asked for is not forgotten: while the connection is held, and not draining because of
a close, it is pending or done. -/
theorem C79_pending {t0 : Nat} {e0 : Ep I A} (hnew : Ep.tryNew cfg env t0 = .ok e0) (cmp0 cmp : CmpOptions)
    (ring : Option Keyring) (io : S) (handles : List C) (listener : Option C) (ops : List (EOp I A C S)) (x : Nat)
    (k : Wired A C) :
    let g := (Engine.new cfg env X T e0 cmp0 cmp ring io handles listener).run cfg env X T E ops
    g.conns.get? x = some k → .down .shutdown ∈ handedTo x g.hist → k.state ≠ .closing →
      k.finPending = true ∨ ∃ s c, (s, Act.fin x c) ∈ g.log := by
  intro g hk hs hc
  have hr := run_moves (cfg := cfg) (env := env) (X := X) (T := T) (E := E) e0 cmp0 cmp ring io handles listener ops
  rcases (pact hnew hr x).ask k hk (downs_mem hs) hc with h | h
  · exact .inl h
  · right
    have hf := ((pipe hnew hr x).half k hk).1 h
    simp only [ev, evOf, gear, List.any_eq_true] at hf
    obtain ⟨⟨s, a⟩, hm, ha⟩ := hf
    cases a <;> simp only [isFin, decide_eq_true_eq, Bool.false_eq_true] at ha
    subst ha
    exact ⟨s, _, hm⟩

/-- C79. The coordinator is given exactly what was read from the connection, piece by piece, in order, and the end of the
stream at most once. -/
theorem C79_read {t0 : Nat} {e0 : Ep I A} (hnew : Ep.tryNew cfg env t0 = .ok e0) (cmp0 cmp : CmpOptions)
    (ring : Option Keyring) (io : S) (handles : List C) (listener : Option C) (ops : List (EOp I A C S)) (x : Nat) :
    let g := (Engine.new cfg env X T e0 cmp0 cmp ring io handles listener).run cfg env X T E ops
    inputGiven x g.hist = inputRead x g.log ∧ ((inputRead x g.log).filter Prod.snd).length ≤ 1 := by
  intro g
  have hp := pipe hnew (run_moves (cfg := cfg) (env := env) (X := X) (T := T) (E := E) e0 cmp0 cmp ring io handles listener ops) x
  exact ⟨hp.same.symm, hp.eof⟩

/-- The socket takes three bytes first, then the rest; the half is closed after them. -/
example :
    bytesWritten 0 (Ex.joined 4).log = Ex.wire.take 3 ∧ bytesWritten 0 (Ex.joined 6).log = Ex.wire ∧
    ((Ex.joined 4).conns.get? 0).map (fun k => k.out.flatten) = some (Ex.wire.drop 3) ∧
    written (handedTo 0 (Ex.joined 4).hist) = Ex.wire ∧
    (Act.fin 0 2 ∈ Ex.acts (Ex.joined 6)) ∧ (Act.fin 0 2 ∉ Ex.acts (Ex.joined 4)) ∧
    inputRead 0 (Ex.joined 8).log = [(Ex.answer, false), ([], true)] := by decide +kernel

/-! ### C80 Free sockets are used -/

/-- C80. After every pump that came to its end, if any socket of the pool can be used again then one is listening, and
no connection waits for a socket. -/
theorem C80_served {t0 : Nat} {e0 : Ep I A} (hnew : Ep.tryNew cfg env t0 = .ok e0) (cmp0 cmp : CmpOptions)
    (ring : Option Keyring) (io : S) (handles : List C) (listener : Option C) (ops : List (EOp I A C S)) (now : Nat)
    (datagrams : List (A × Bytes)) :
    let g := ((Engine.new cfg env X T e0 cmp0 cmp ring io handles listener).run cfg env X T E ops).pump
      cfg env X T E now datagrams
    g.cut = false → (∃ c ∈ g.pool, E.io.reuseReady g.io c = true) →
      g.listener ≠ none ∧ ∀ x k, g.conns.get? x = some k → k.socket ≠ none := by
  intro g hc hf
  have hr := run_moves (cfg := cfg) (env := env) (X := X) (T := T) (E := E) e0 cmp0 cmp ring io handles listener ops
  obtain ⟨h1, h2⟩ := (pump_end hnew hr now datagrams hc).1 hf
  refine ⟨h1, fun x k hk hs => h2 x k hk ?_⟩
  have hr' := hr.trans ((pump_moves (nodup_moves hr Map.nodup_nil) now datagrams).mono (fun _ => mild_plain))
  exact ((pipe hnew hr' x).sock k hk).1 hs

/-- Three seeds and two free sockets: the first two are dialled, the third waits; when a dial ends its socket is used
for the third. -/
example :
    let g := Ex.g0.run Ex.cfg Ex.env Ex.X0 Ex.T0 Ex.E0 [.join [101, 104, 105], .pump 5 []]
    g.pool = [] ∧ (g.conns.get? 2).map (fun k => k.socket) = some none ∧ g.cut = false ∧
    (let g' := g.pump Ex.cfg Ex.env Ex.X0 Ex.T0 Ex.E0 10000000010 []
     g'.cut = false ∧ g'.pool = [2, 1] ∧ g'.listener = some 0 ∧ g'.conns.get? 2 = none) := by decide +kernel

/-! ### C81 Policy -/

/-- C81. Whom the engine deals with: it accepts no connection from a blocked peer; it dials only, and sends datagrams
only, to peers that are routable and not blocked; and no datagram from a blocked source reaches the coordinator. -/
theorem C81_policy {t0 : Nat} {e0 : Ep I A} (hnew : Ep.tryNew cfg env t0 = .ok e0) (cmp0 cmp : CmpOptions)
    (ring : Option Keyring) (io : S) (handles : List C) (listener : Option C)
    (hH : (handles ++ listener.toList).Nodup) (ops : List (EOp I A C S)) :
    let g := (Engine.new cfg env X T e0 cmp0 cmp ring io handles listener).run cfg env X T E ops
    (∀ s x c peer, (s, Act.accept x c peer) ∈ g.log → E.blocked peer = false) ∧
    (∀ s x c peer ok, (s, Act.connect x c peer ok) ∈ g.log → E.blocked peer = false ∧ E.routable peer = true) ∧
    (∀ s dst w, (s, Act.datagram dst w) ∈ g.log → E.blocked dst = false ∧ E.routable dst = true) ∧
    (∀ src raw now o, (XOp.gossip src raw now, o) ∈ g.hist → E.blocked src = false) := by
  intro g
  have hr := run_moves (cfg := cfg) (env := env) (X := X) (T := T) (E := E) e0 cmp0 cmp ring io handles listener ops
  have hb := book hnew hH hr
  refine ⟨fun s x c peer h => (hb.warranted _ h).2, fun s x c peer ok h => ?_, fun s dst w h => hb.warranted _ h,
    fun src raw now o h => ?_⟩
  · obtain ⟨_, h1, h2, _⟩ := hb.warranted _ h
    exact ⟨h1, h2⟩
  · obtain ⟨h1, h2, e⟩ := List.append_of_mem h
    obtain ⟨_, _, _, h3, _⟩ := hist_sourced (P := Plain E) (fun _ h => h) hr e
    exact h3

/-- A seed that is blocked is not dialled, and its exchange fails; a datagram from it is ignored. -/
example :
    let g := Ex.g0.run Ex.cfg Ex.env Ex.X0 Ex.T0 Ex.E0 [.join [103, 101], .pump 5 [(103, [1]), (101, [2])]]
    Ex.acts g = [.abort 2, .free 2, .connect 1 2 101 true] ∧
    (g.hist.filterMap (fun e => match e.1 with | .gossip src _ _ => some src | _ => none)) = [101] := by decide +kernel

/-! ### C82 Deadlines -/

/-- C82. The instant a pump returns is the first of the instants anything waits for: it is not later than any of them,
and it is one of them. -/
theorem C82_wake (g : Engine I A C S) :
    (∀ d ∈ deadlines g, ∃ w, g.wake = some w ∧ w ≤ d) ∧ ∀ w, g.wake = some w → w ∈ deadlines g := wake_first g

/-- C82. After a pump that came to its end, no socket that winds down and no connection that drains is overdue: each was
finished, reset, or has its instant still ahead. So none is kept beyond the close timeout, if pumps come in time. -/
theorem C82_due {t0 : Nat} {e0 : Ep I A} (hnew : Ep.tryNew cfg env t0 = .ok e0) (cmp0 cmp : CmpOptions)
    (ring : Option Keyring) (io : S) (handles : List C) (listener : Option C) (ops : List (EOp I A C S)) (now : Nat)
    (datagrams : List (A × Bytes)) (ht : 0 < E.closeTimeout) :
    let g := ((Engine.new cfg env X T e0 cmp0 cmp ring io handles listener).run cfg env X T E ops).pump
      cfg env X T E now datagrams
    g.cut = false → (∀ c d, g.closing.get? c = some d → now < d) ∧
      ∀ x k d, g.conns.get? x = some k → k.closeDeadline = some d → now < d := by
  intro g hc
  have hr := run_moves (cfg := cfg) (env := env) (X := X) (T := T) (E := E) e0 cmp0 cmp ring io handles listener ops
  obtain ⟨h1, h2⟩ := (pump_end hnew hr now datagrams hc).2 ht
  exact ⟨h1, fun x k d hk hd => h2 x k d hk hd⟩

/-- C82. A connection that drains goes on doing so until it is gone, and its deadline is moved only when less is left to
deliver than ever before: at most as often as there were bytes. -/
theorem C82_drain {t0 : Nat} {e0 : Ep I A} (hnew : Ep.tryNew cfg env t0 = .ok e0) (cmp0 cmp : CmpOptions)
    (ring : Option Keyring) (io : S) (handles : List C) (listener : Option C) (ops ops' : List (EOp I A C S)) (x : Nat)
    (k k' : Wired A C) :
    let g := (Engine.new cfg env X T e0 cmp0 cmp ring io handles listener).run cfg env X T E ops
    let g' := g.run cfg env X T E ops'
    g.conns.get? x = some k → k.state = .closing → g'.conns.get? x = some k' →
      k'.state = .closing ∧
        ((k'.drainMark = k.drainMark ∧ k'.closeDeadline = k.closeDeadline) ∨ k'.drainMark < k.drainMark) := by
  intro g g' hk hs hk'
  have hr := run_moves (cfg := cfg) (env := env) (X := X) (T := T) (E := E) e0 cmp0 cmp ring io handles listener ops
  have hm : EMoves cfg env X T E g g' := by
    have : ∀ (l : List (EOp I A C S)) (g : Engine I A C S), g.conns.NodupKeys →
        EMoves cfg env X T E g (g.run cfg env X T E l) := by
      intro l
      induction l with
      | nil => intro g _; exact .refl g
      | cons op l ih =>
        intro g hn
        have h1 := step_moves (cfg := cfg) (env := env) (X := X) (T := T) (E := E) hn op
        exact h1.trans (ih _ (nodup_moves h1 hn))
    exact this ops' g (nodup_moves hr Map.nodup_nil)
  rcases (drain_moves hnew hr hm ((pipe hnew hr x).clos k hk hs)).2 with h | ⟨a, b, e1, e2, _, h2, h3⟩
  · rw [h] at hk'; cases hk'
  · rw [hk] at e1; cases e1
    rw [hk'] at e2; cases e2
    exact ⟨h2, h3⟩

/-- The socket of the join winds down until the peer closes, or for the close timeout, after which it is reset. -/
example :
    (Ex.joined 8).closing = [(2, 9 + 5 * MS)] ∧ (Ex.joined 8).wake = some (9 + 5 * MS) ∧
    (let g := (Ex.joined 8).pump Ex.cfg Ex.env Ex.X0 Ex.T0 Ex.E0 (9 + 5 * MS) []
     g.closing = [] ∧ (Ex.acts g).drop 6 = [.abort 2, .free 2]) ∧
    ((Ex.joined 8).pump Ex.cfg Ex.env Ex.X0 Ex.T0 Ex.E0 (8 + 5 * MS) []).closing = [(2, 9 + 5 * MS)] := by decide +kernel

/-! ### C83 Which send a completion belongs to -/

omit [DecidableEq I] [DecidableEq A] in
theorem owed_of {x sid : Nat} {peer : A} (h : List (XOp I A × XOut I A)) (hd : dialled (handedTo x h) ≤ 1)
    (hc : .connect peer sid ∈ handedTo x h)
    (hn : ∀ op r, (op, XOut.event (some (.external (some r)))) ∈ h → r.exchange ≠ x) : owed x h = some sid := by
  suffices H : ∀ (h : List (XOp I A × XOut I A)) (o : Option Nat), dialled (handedTo x h) ≤ 1 →
      (∀ op r, (op, XOut.event (some (.external (some r)))) ∈ h → r.exchange ≠ x) →
      (.connect peer sid ∈ handedTo x h ∨ (o = some sid ∧ dialled (handedTo x h) = 0)) →
      h.foldl (owedStep x) o = some sid from H h none hd hn (.inl hc)
  intro h
  induction h with
  | nil =>
    intro o _ _ hc
    rcases hc with hc | hc
    · cases hc
    · exact hc.1
  | cons e h ih =>
    intro o hd hn hc
    obtain ⟨op, out⟩ := e
    have hsplit : handedTo x ((op, out) :: h) = emitOf x out ++ handedTo x h := by simp [handedTo, handed]
    rw [hsplit] at hc hd
    rw [List.foldl_cons]
    have hn' : ∀ op r, (op, XOut.event (some (.external (some r)))) ∈ h → r.exchange ≠ x :=
      fun op r hm => hn op r (List.mem_cons_of_mem _ hm)
    have skip : emitOf x out = [] → (∀ r, out = .event (some (.external (some r))) → r.exchange ≠ x) →
        (∀ y p s, out = .action (some (.connect y p s)) → y ≠ x) →
        h.foldl (owedStep x) (owedStep x o (op, out)) = some sid := by
      intro he h1 h2
      rw [he, List.nil_append] at hc hd
      have : owedStep x o (op, out) = o := by
        clear hsplit hn he
        unfold owedStep
        split
        · next y p s e => rw [if_neg (h2 y p s e)]
        · next r e => rw [if_neg (h1 r e)]
        · rfl
      rw [this]
      exact ih o hd hn' hc
    by_cases hcon : ∃ p s, out = .action (some (.connect x p s))
    · obtain ⟨p, s, rfl⟩ := hcon
      simp only [emitOf, if_true, List.singleton_append, dialled] at hc hd
      have he : owedStep x o (op, XOut.action (some (.connect x p s))) = some s := by simp [owedStep]
      rw [he]
      refine ih _ (by omega) hn' ?_
      rcases hc with hc | hc
      · rcases List.mem_cons.1 hc with e | hc
        · cases e; exact .inr ⟨rfl, by omega⟩
        · exact .inl hc
      · omega
    · cases out with
      | bytes b =>
        cases b with
        | none => exact skip rfl (fun _ h => by cases h) (fun _ _ _ h => by cases h)
        | some b =>
          obtain ⟨y, p, b⟩ := b
          by_cases hy : y = x
          · simp only [emitOf, if_pos hy, List.singleton_append, dialled] at hc hd
            refine ih o hd hn' ?_
            rcases hc with hc | hc
            · rcases List.mem_cons.1 hc with e | hc
              · cases e
              · exact .inl hc
            · exact .inr hc
          · exact skip (by simp [emitOf, hy]) (fun _ h => by cases h) (fun _ _ _ h => by cases h)
      | action a =>
        cases a with
        | none => exact skip rfl (fun _ h => by cases h) (fun _ _ _ h => by cases h)
        | some a =>
          cases a with
          | connect y p s =>
            have hy : y ≠ x := fun e => hcon ⟨p, s, by rw [e]⟩
            exact skip (by simp [emitOf, hy]) (fun _ h => by cases h) (fun _ _ _ h => by cases h; exact hy)
          | down t y =>
            by_cases hy : y = x
            · simp only [emitOf, if_pos hy, List.singleton_append, dialled] at hc hd
              refine ih o hd hn' ?_
              rcases hc with hc | hc
              · rcases List.mem_cons.1 hc with e | hc
                · cases e
                · exact .inl hc
              · exact .inr hc
            · exact skip (by simp [emitOf, hy]) (fun _ h => by cases h) (fun _ _ _ h => by cases h)
      | event ev => exact skip rfl (fun r h => hn op r (by rw [← h]; exact List.mem_cons_self ..)) (fun _ _ _ h => by cases h)
      | _ => exact skip rfl (fun _ h => by cases h) (fun _ _ _ h => by cases h)

/-- C83, in part. When the completion of an exchange is polled, the engine tells the id under which its connection was
requested, if that request reached the engine and no completion of that exchange was polled before. Missing: the request
need not reach the engine; see `C83_lost`. -/
theorem C83_correlated_partial {t0 : Nat} {e0 : Ep I A} (hnew : Ep.tryNew cfg env t0 = .ok e0) (cmp0 cmp : CmpOptions)
    (ring : Option Keyring) (io : S) (handles : List C) (listener : Option C) (ops : List (EOp I A C S))
    (r : Completion A) (peer : A) (sid : Nat) :
    let g := (Engine.new cfg env X T e0 cmp0 cmp ring io handles listener).run cfg env X T E ops
    g.cut = false → (g.step cfg env X T E .pollEvent).2 = .event (some (.external (some r))) →
    .connect peer sid ∈ handedTo r.exchange g.hist →
    (∀ op r', (op, XOut.event (some (.external (some r')))) ∈ g.hist → r'.exchange ≠ r.exchange) →
    (g.step cfg env X T E .pollEvent).1.lastSend = some sid := by
  intro g hcut hev hcon hfirst
  have hr := run_moves (cfg := cfg) (env := env) (X := X) (T := T) (E := E) e0 cmp0 cmp ring io handles listener ops
  have hd : dialled (handedTo r.exchange g.hist) ≤ 1 := by
    have := (drive hnew hr r.exchange).conn
    exact Nat.le_trans (Nat.le_add_right _ _) this
  have ho := owed_of g.hist hd hcon hfirst
  rw [← sids_owed hr r.exchange] at ho
  revert hev
  unfold Engine.step
  rw [if_neg (by rw [hcut]; simp)]
  simp only [act]
  split
  · next g1 r' h =>
    intro hev
    simp only [EOut.event.injEq, Option.some.injEq, Event.external.injEq] at hev
    subst hev
    have h1 : (g.call cfg env X T .pollEvent).1 = g1 := by rw [h]
    rw [← h1]; exact ho
  · next g1 ev hne h =>
    intro hev
    simp only [EOut.event.injEq] at hev
    subst hev
    exact absurd rfl (hne r)
  · intro hev; cases hev

/-- C83. After polling anything else, no send is told. -/
theorem C83_others (g : Engine I A C S) (hcut : g.cut = false)
    (h : ∀ r, (g.step cfg env X T E .pollEvent).2 ≠ .event (some (.external (some r)))) :
    (g.step cfg env X T E .pollEvent).1.lastSend = none := by
  revert h
  unfold Engine.step
  rw [if_neg (by rw [hcut]; simp)]
  simp only [act]
  split
  · next g1 r _ => intro h; exact absurd rfl (h r)
  · intro _; rfl
  · intro _; rfl

/-- A send that fails to connect: its completion is told with the id the send returned. -/
example :
    let g := Ex.g0.run Ex.cfg Ex.env Ex.X0 Ex.T0 Ex.E0 [.sendReliable 102 [1, 2] 5, .pump 6 [], .pollEvent]
    (match (Ex.g0.step Ex.cfg Ex.env Ex.X0 Ex.T0 Ex.E0 (.sendReliable 102 [1, 2] 5)).2 with
     | .call (.started (.ok sid)) => sid | _ => 0) = 1 ∧
    (match (g.step Ex.cfg Ex.env Ex.X0 Ex.T0 Ex.E0 .pollEvent).2 with
     | .event (some (.external (some r))) => some (r.exchange, r.peer, r.ok) | _ => none) = some (0, 102, false) ∧
    (g.step Ex.cfg Ex.env Ex.X0 Ex.T0 Ex.E0 .pollEvent).1.lastSend = some 1 ∧ g.cut = false ∧
    .connect 102 1 ∈ handedTo 0 g.hist := by decide +kernel

/-- C83 does not hold as it stands: if the keys are changed after a send and before the next pump, the completion of the
send is polled and no send is told, so that whoever waits for that send is not woken. -/
theorem C83_lost :
    let g := Ex.g0.run Ex.cfg Ex.env Ex.X0 Ex.T0 Ex.E0
      [.sendReliable 101 [1, 2] 5, .setEncryption none, .pump 6 [], .pollEvent]
    (match (Ex.g0.step Ex.cfg Ex.env Ex.X0 Ex.T0 Ex.E0 (.sendReliable 101 [1, 2] 5)).2 with
     | .call (.started (.ok sid)) => sid | _ => 0) = 1 ∧
    (match (g.step Ex.cfg Ex.env Ex.X0 Ex.T0 Ex.E0 .pollEvent).2 with
     | .event (some (.external (some r))) => some (r.exchange, r.peer, r.ok) | _ => none) = some (0, 101, false) ∧
    (g.step Ex.cfg Ex.env Ex.X0 Ex.T0 Ex.E0 .pollEvent).1.lastSend = none ∧ g.cut = false := by decide +kernel

/-! ### C84 Where membership messages come from -/

/-- C84. Every message the endpoint is given as a packet comes from a datagram of that source, received from a peer that
is not blocked, which opened under the keyring in force and parsed under the node's label; or it is the claim the
application made by name. -/
theorem C84_origin {t0 : Nat} {e0 : Ep I A} (hnew : Ep.tryNew cfg env t0 = .ok e0) (cmp0 cmp : CmpOptions)
    (ring : Option Keyring) (io : S) (handles : List C) (listener : Option C) (ops : List (EOp I A C S))
    (h1 h2 : List (XOp I A × XOut I A)) (src : A) (m : Message I A) (now : Nat) (o : XOut I A)
    (hh : ((Engine.new cfg env X T e0 cmp0 cmp ring io handles listener).run cfg env X T E ops).hist =
      h1 ++ (.direct (.packet src m now), o) :: h2) :
    (∃ raw t o' plain msgs, (XOp.gossip src raw t, o') ∈ h1 ∧ E.blocked src = false ∧
      unwrapWithEncryption T.B ((Coord.new e0 cmp0).run cfg env X T (h1.map Prod.fst)).ring raw cfg.gossipMtu = .ok plain ∧
      receiveDatagram env.CI env.CA X.label plain = .ok msgs ∧ m ∈ msgs) ∨
    (∃ id, EOp.injectAlive id src now ∈ ops ∧ m = .alive ⟨1, [], ⟨id, src⟩, .v1, .v1⟩) := by
  have hra := run_asked (cfg := cfg) (env := env) (X := X) (T := T) (E := E) e0 cmp0 cmp ring io handles listener ops
  obtain ⟨g1, hr1, e1, hs, _⟩ := hist_sourced (fun _ h => h.1) hra hh
  rcases hs with ⟨raw, hp, hm⟩ | hp
  · left
    subst e1
    have hr1' : Reached cfg env X T E e0 cmp0 io handles listener g1 := hr1.mono (fun _ h => h.1)
    have htr := traced hr1'
    obtain ⟨a, b, eh⟩ := List.append_of_mem hp
    obtain ⟨g2, hr2, e2, _, ho⟩ := hist_sourced (fun _ h => h.1) hr1 eh
    have hr2' : Reached cfg env X T E e0 cmp0 io handles listener g2 := hr2.mono (fun _ h => h.1)
    have hi := pollIngress_mem (cfg := cfg) (env := env) (X := X) (T := T) g2.coord ho.symm
    rw [(traced hr2').1] at hi
    obtain ⟨t, ht⟩ := ingress_from (cfg := cfg) (env := env) (X := X) (T := T) (Coord.new e0 cmp0) rfl (opsOf g2) _ hi
    obtain ⟨⟨op, o'⟩, hin, eop⟩ := List.mem_map.1 ht
    have hin1 : (XOp.gossip src raw t, o') ∈ g1.hist := by
      rw [eh, ← e2]
      simp only at eop
      subst eop
      exact List.mem_append_left _ hin
    have hb : E.blocked src = false := by
      obtain ⟨a', b', eh'⟩ := List.append_of_mem hin1
      obtain ⟨_, _, _, h3, _⟩ := hist_sourced (fun _ h => h.1) hr1 eh'
      exact h3
    have hring : g1.coord.ring = ((Coord.new e0 cmp0).run cfg env X T (g1.hist.map Prod.fst)).ring := by rw [htr.1]
    unfold Engine.received at hm
    split at hm
    · cases hm
    · next plain hu =>
      split at hm
      · cases hm
      · next msgs hd => exact ⟨raw, t, o', plain, msgs, hin1, hb, by rw [← hring]; exact hu, hd, hm⟩
  · right
    obtain ⟨id, h1, h2⟩ := hp.2.2 src m now rfl
    exact ⟨id, h1, h2⟩

/-- C84. With encryption on, such a datagram was sealed under a key of the node's keyring. -/
theorem C84_authentic {t0 : Nat} {e0 : Ep I A} (hnew : Ep.tryNew cfg env t0 = .ok e0) (cmp0 cmp : CmpOptions)
    (ring : Option Keyring) (io : S) (handles : List C) (listener : Option C) (ops : List (EOp I A C S))
    (h1 h2 : List (XOp I A × XOut I A)) (src : A) (m : Message I A) (now : Nat) (o : XOut I A) (r : Keyring)
    (hh : ((Engine.new cfg env X T e0 cmp0 cmp ring io handles listener).run cfg env X T E ops).hist =
      h1 ++ (.direct (.packet src m now), o) :: h2)
    (hring : ((Coord.new e0 cmp0).run cfg env X T (h1.map Prod.fst)).ring = some r)
    (hclaim : ∀ id t, EOp.injectAlive id src t ∉ ops) :
    ∃ raw t o', (XOp.gossip src raw t, o') ∈ h1 ∧ ∃ k ∈ r.primary :: r.secondaries, ∃ nonce ct inner,
      raw = 13 :: cipherByte k :: (nonce ++ ct) ∧ T.B.aeadOpen k nonce ct [13, cipherByte k] = some inner ∧
      ∃ plain msgs, unwrapTransforms T.B inner cfg.gossipMtu = .ok plain ∧
        receiveDatagram env.CI env.CA X.label plain = .ok msgs ∧ m ∈ msgs := by
  rcases C84_origin hnew cmp0 cmp ring io handles listener ops h1 h2 src m now o hh with
    ⟨raw, t, o', plain, msgs, g1, _, g2, g3, g4⟩ | ⟨id, g1, _⟩
  · rw [hring] at g2
    obtain ⟨k, hk, nonce, ct, inner, e, _, _, e2, e3⟩ := C11_accepted_authenticated T.B r raw plain _ g2
    exact ⟨raw, t, o', g1, k, hk, nonce, ct, inner, e, e2, plain, msgs, e3, g3, g4⟩
  · exact absurd g1 (hclaim id now)

/-! ### C85 No connection is left behind -/

/-- C85. Every connection the engine holds is draining under a deadline, or belongs to an exchange the coordinator still
holds, or its close or abort is already queued. -/
theorem C85_held {t0 : Nat} {e0 : Ep I A} (hnew : Ep.tryNew cfg env t0 = .ok e0) (cmp0 cmp : CmpOptions)
    (ring : Option Keyring) (io : S) (handles : List C) (listener : Option C) (ops : List (EOp I A C S)) (x : Nat)
    (k : Wired A C) :
    let g := (Engine.new cfg env X T e0 cmp0 cmp ring io handles listener).run cfg env X T E ops
    g.conns.get? x = some k →
      (k.state = .closing ∧ ∃ d, k.closeDeadline = some d) ∨ g.coord.metas.get? x ≠ none ∨
      (.close, x) ∈ g.coord.teardowns ∨ (.abort, x) ∈ g.coord.teardowns := by
  intro g hk
  have hr := run_moves (cfg := cfg) (env := env) (X := X) (T := T) (E := E) e0 cmp0 cmp ring io handles listener ops
  by_cases hs : k.state = .closing
  · exact .inl ⟨hs, Option.ne_none_iff_exists'.1 (((pact hnew hr x).dl k hk).1 hs)⟩
  · right
    have hp := (pipe hnew hr x).calm k hk hs
    cases hm : g.coord.metas.get? x with
    | some m => exact .inl (by simp)
    | none =>
      right
      have hset := begun hnew hr x (.inl (by rw [hk]; simp))
      have hd := drive hnew hr x
      have hborn : (g.coord.view x).born = true := by simpa [Coord.view] using hset.1
      have hbr : (g.coord.view x).br = none := ((shape hr).keys x).2 hm
      obtain ⟨half, full, e1, e2, _, e3⟩ := hd.tear
      have hfull := e3 hborn hbr
      have hmem : ∀ t, t ∈ full → (t = .close ∨ t = .abort) → (t, x) ∈ g.coord.teardowns := by
        intro t ht hta
        have hin : t ∈ downs (given g x) ++ (g.coord.view x).down := by rw [e1]; exact List.mem_append_right _ ht
        rcases List.mem_append.1 hin with hin | hin
        · rcases hta with e | e <;> subst e
          · exact absurd hin hp.1
          · exact absurd hin hp.2
        · simp only [Coord.view, List.mem_map, List.mem_filter] at hin
          obtain ⟨⟨t', y⟩, ⟨h1, h2⟩, h3⟩ := hin
          simp only [decide_eq_true_eq] at h2 h3
          subst h2 h3
          exact h1
      rcases e2.2 with e | e | e | e
      · exact absurd e hfull
      · exact .inl (hmem .close (by rw [e]; simp) (.inl rfl))
      · exact .inr (hmem .abort (by rw [e]; simp) (.inr rfl))
      · exact .inr (hmem .abort (by rw [e]; simp) (.inr rfl))

/-- C85. Conversely, an exchange whose connection the coordinator asked for, or which was accepted, has its connection
(or waits in the engine for a socket) until the coordinator says to close or abort it, or is told that the dial
failed. -/
theorem C85_served {t0 : Nat} {e0 : Ep I A} (hnew : Ep.tryNew cfg env t0 = .ok e0) (cmp0 cmp : CmpOptions)
    (ring : Option Keyring) (io : S) (handles : List C) (listener : Option C) (ops : List (EOp I A C S)) (x : Nat) :
    let g := (Engine.new cfg env X T e0 cmp0 cmp ring io handles listener).run cfg env X T E ops
    ((∃ peer sid, .connect peer sid ∈ handedTo x g.hist) ∨ ∃ s c peer, (s, Act.accept x c peer) ∈ g.log) →
      g.conns.get? x ≠ none ∨ .down .close ∈ handedTo x g.hist ∨ .down .abort ∈ handedTo x g.hist ∨
      ∃ now o, (XOp.dialFailed x now, o) ∈ g.hist := by
  intro g h
  have hr := run_moves (cfg := cfg) (env := env) (X := X) (T := T) (E := E) e0 cmp0 cmp ring io handles listener ops
  have hh := held_moves hnew hr x (h.elim .inl (fun ⟨s, c, peer, h⟩ => .inr ⟨_, h, c, peer, rfl⟩))
  rcases hh with h | h | h | h
  · exact .inl h
  · exact .inr (.inl (mem_downs h))
  · exact .inr (.inr (.inl (mem_downs h)))
  · exact .inr (.inr (.inr h))

/-- Three seeds and two sockets: the third exchange waits, and is held. A seed that cannot be reached is reported. -/
example :
    let g := Ex.g0.run Ex.cfg Ex.env Ex.X0 Ex.T0 Ex.E0 [.join [101, 104, 105], .pump 5 []]
    (.connect 105 3 ∈ handedTo 2 g.hist) ∧ (g.conns.get? 2).map (fun k => k.state) = some .pendingDial ∧
    (let g := Ex.g0.run Ex.cfg Ex.env Ex.X0 Ex.T0 Ex.E0 [.join [102], .pump 5 []]
     (.connect 102 1 ∈ handedTo 0 g.hist) ∧ g.conns.get? 0 = none ∧
     g.hist.any (fun e => match e.1 with | .dialFailed 0 5 => true | _ => false) = true) := by decide +kernel

/-- Changing the keys queues the abort of the connection being dialled; the next pump lets it go. -/
example :
    let g := (Ex.joined 2).run Ex.cfg Ex.env Ex.X0 Ex.T0 Ex.E0 [.pump 6 [], .setEncryption none]
    (g.conns.get? 0).map (fun k => k.state) = some .dialing ∧ (.abort, 0) ∈ g.coord.teardowns ∧
    (g.run Ex.cfg Ex.env Ex.X0 Ex.T0 Ex.E0 [.pump 7 []]).conns.get? 0 = none := by decide +kernel

/-! ### C86 Nothing leaves in the clear -/

/-- C86. If every keyring the engine is ever told to use is a keyring, that is, if encryption is never off, then every
datagram it sends is sealed under the primary key of one of them. -/
theorem C86_datagrams {t0 : Nat} {e0 : Ep I A} (hnew : Ep.tryNew cfg env t0 = .ok e0) (cmp0 cmp : CmpOptions)
    (ring : Option Keyring) (io : S) (handles : List C) (listener : Option C) (ops : List (EOp I A C S))
    (hon : ∀ r, Configured ring ops r → r ≠ none) (s : S) (dst : A) (w : Bytes)
    (hw : (s, Act.datagram dst w) ∈
      ((Engine.new cfg env X T e0 cmp0 cmp ring io handles listener).run cfg env X T E ops).log) :
    ∃ r, Configured ring ops (some r) ∧ SealedUnder T.B r w := by
  obtain ⟨r, cmp', nonce, payload, h1, h2⟩ :=
    (closed_run (X := X) (T := T) (E := E) (cmp0 := cmp0) (io0 := io) (handles := handles) (listener := listener) hnew cmp ring
      ops).gossip s dst w hw
  cases r with
  | none => exact absurd rfl (hon _ h1)
  | some r => exact ⟨r, h1, sendGossip_sealed h2⟩

/-- C86. And everything it writes on a connection is a beginning of the label header and one frame sealed under the
primary key of one of them. -/
theorem C86_streams {t0 : Nat} {e0 : Ep I A} (hnew : Ep.tryNew cfg env t0 = .ok e0) (cmp0 cmp : CmpOptions)
    (ring : Option Keyring) (io : S) (handles : List C) (listener : Option C) (ops : List (EOp I A C S))
    (hon : ∀ r, Configured ring ops r → r ≠ none) (x : Nat) :
    ∃ r frame, Configured ring ops (some r) ∧ SealedUnder T.B r frame ∧
      bytesWritten x ((Engine.new cfg env X T e0 cmp0 cmp ring io handles listener).run cfg env X T E ops).log <+:
        header X.label ++ (encodeVarint (frame.length % 2 ^ 32) ++ frame) := by
  have hw := (C79_written (cfg := cfg) (env := env) (X := X) (T := T) (E := E) hnew cmp0 cmp ring io handles listener ops x).1
  obtain ⟨r, u, h1, h2, h3⟩ :=
    (closed_run (X := X) (T := T) (E := E) (cmp0 := cmp0) (io0 := io) (handles := handles) (listener := listener) hnew cmp ring
      ops).stream x
  cases r with
  | none => exact absurd rfl (hon _ h1)
  | some r =>
    have hpre := hw.trans h3
    rcases h2 with h2 | ⟨_, _, nonce, frame, _, h4, h5⟩
    · subst h2
      rw [List.append_nil] at hpre
      exact ⟨r, 13 :: cipherByte r.primary :: ([] ++ T.B.aeadSeal r.primary [] [] [13, cipherByte r.primary]), h1,
        ⟨[], [], rfl⟩, hpre.trans ⟨_, rfl⟩⟩
    · subst h5
      exact ⟨r, frame, h1, encryptPayload_sealed h4, hpre⟩

/-- The join is written under the key. -/
example : Configured Ex.ring0 (Ex.joinEngine) Ex.ring0 ∧
    (∀ r, Configured Ex.ring0 Ex.joinEngine r → r ≠ none) ∧
    bytesWritten 0 (Ex.joined 6).log = Ex.wire := by
  refine ⟨.inl rfl, fun r h => ?_, by decide +kernel⟩
  rcases h with h | h
  · subst h; simp [Ex.ring0]
  · simp [Ex.joinEngine] at h

end Verif.Props
