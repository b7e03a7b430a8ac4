import Verif.Model.Engine
import Verif.Proof.CoordMint
/-
Every call of the embedded engine is a sequence of small moves. Invariants of the engine are proved move by move.
-/
namespace Verif.Map
variable {K V : Type} [DecidableEq K]

theorem erase_modify (m : Map K V) (k : K) (f : V → V) : erase (modify m k f) k = erase m k := by
  induction m with
  | nil => rfl
  | cons e m ih =>
    simp only [erase, modify, ne_eq, decide_not] at ih
    by_cases h : e.1 = k <;> simp [erase, modify, h, ih]

theorem modify_insert {m : Map K V} (hn : NodupKeys m) (k : K) (v : V) (f : V → V) :
    modify (insert m k v) k f = insert m k (f v) := by
  rw [modify_eq_insert (nodup_insert hn k v) f (get?_insert_self m k v), insert_insert]

end Verif.Map

namespace Verif.Engine
open Verif Coord
variable {I A C S : Type}

theorem takeReady_some {ready : C → Bool} {l : List C} {c : C} {r : List C} (h : takeReady ready l = some (c, r)) :
    ready c = true ∧ l.Perm (c :: r) := by
  induction l generalizing c r with
  | nil => cases h
  | cons a l ih =>
    unfold takeReady at h
    split at h
    · next d q hq =>
      obtain ⟨rfl, rfl⟩ := Prod.mk.inj (Option.some.inj h)
      obtain ⟨h1, h2⟩ := ih hq
      exact ⟨h1, (h2.cons a).trans (List.Perm.swap ..)⟩
    · split at h
      · next hr =>
        obtain ⟨rfl, rfl⟩ := Prod.mk.inj (Option.some.inj h)
        exact ⟨hr, .refl _⟩
      · cases h

theorem takeReady_none {ready : C → Bool} {l : List C} (h : takeReady ready l = none) : ∀ c ∈ l, ready c = false := by
  induction l with
  | nil => intro c hc; cases hc
  | cons a l ih =>
    unfold takeReady at h
    split at h
    · cases h
    · next hn =>
      split at h
      · cases h
      · next hr =>
        intro c hc
        rcases List.mem_cons.1 hc with rfl | hc
        · simpa using hr
        · exact ih hn c hc

/-- Only what no invariant speaks of changes. -/
structure Aside (g g' : Engine I A C S) : Prop where
  coord : g'.coord = g.coord
  pool : g'.pool = g.pool
  conns : g'.conns = g.conns
  listener : g'.listener = g.listener
  closing : g'.closing = g.closing
  sids : g'.sids = g.sids
  lastSend : g'.lastSend = g.lastSend
  log : g'.log = g.log
  hist : g'.hist = g.hist
  seeds : g'.seeds = g.seeds
  sealed : g.sealed ≤ g'.sealed

/-- The calls that are tied to no socket. -/
def Plain (E : EEnv S C A) : XOp I A → Prop
  | .startPushPull .. => True
  | .startUserMessage .. => True
  | .timeout _ => True
  | .gossip src _ _ => E.blocked src = false
  | .leave .. => True
  | .setEncryption _ => True
  | .setCompression _ => True
  | .pollIngress => True
  | .direct (.packet src m _) => ∃ id, m = .alive ⟨1, [], ⟨id, src⟩, .v1, .v1⟩ ∧ E.routable src = true
  | .direct (.startProbe _) => False
  | .direct _ => True
  | _ => False

/-- The calls of a pump, besides those to its seeds and those for its datagrams: no setting changes. -/
def Tame (E : EEnv S C A) : XOp I A → Prop
  | .direct .pollTransmit => False
  | .startPushPull .. => False
  | .leave .. => False
  | .setEncryption _ => False
  | .setCompression _ => False
  | .direct (.packet ..) => False
  | op => Plain E op

theorem tame_plain {E : EEnv S C A} {op : XOp I A} (h : Tame E op) : Plain E op := by
  cases op with
  | direct d => cases d <;> first | exact h | cases h
  | _ => first | exact h | cases h

/-- The calls of a pump besides those to its seeds. -/
def Quiet (E : EEnv S C A) (op : XOp I A) : Prop := Tame E op ∨ op = .direct .pollTransmit

theorem quiet_plain {E : EEnv S C A} {op : XOp I A} (h : Quiet E op) : Plain E op := by
  rcases h with h | rfl
  · exact tame_plain h
  · trivial

/-- The calls of a pump. -/
def Mild (E : EEnv S C A) (op : XOp I A) : Prop :=
  Tame E op ∨ op = .direct .pollTransmit ∨ ∃ seed now, op = .startPushPull seed .join now

theorem mild_plain {E : EEnv S C A} {op : XOp I A} (h : Mild E op) : Plain E op := by
  rcases h with h | rfl | ⟨_, _, rfl⟩
  · exact tame_plain h
  · trivial
  · trivial

section
variable [DecidableEq I] [DecidableEq A] [DecidableEq C]
variable (cfg : Cfg I A) (env : Env I A) (X : XCfg) (T : TEnv) (E : EEnv S C A)

/-- Where a message given to the endpoint by a pump comes from: a datagram the engine took off its queue, opened under
the keyring in force. -/
def Source (g : Engine I A C S) (src : A) (m : Message I A) : Prop :=
  ∃ raw, (Coord.XOp.pollIngress, Coord.XOut.datagram (some (src, raw))) ∈ g.hist ∧
    m ∈ received cfg env X T g.coord.ring raw

/-- One move of the engine, which makes calls of a kind `P`. -/
inductive EMoveP (P : XOp I A → Prop) : Engine I A C S → Engine I A C S → Prop
  | aside {g g' : Engine I A C S} : Aside g g' → EMoveP P g g'
  | reseed (g : Engine I A C S) (seeds : List A) :
      (∀ a ∈ g.seeds ++ seeds, ∀ now, P (.startPushPull a .join now)) → EMoveP P g { g with seeds := seeds }
  | call (g : Engine I A C S) (op : XOp I A) : P op → EMoveP P g (g.call cfg env X T op).1
  | packet (g : Engine I A C S) (src : A) (m : Message I A) (now : Nat) : Source cfg env X T g src m →
      EMoveP P g (g.call cfg env X T (.direct (.packet src m now))).1
  | event (g : Engine I A C S) : EMoveP P g (g.act cfg env X T E .pollEvent).1
  | datagram (g : Engine I A C S) (t : Transmit I A) (dst : A) (b0 nonce b : Bytes) : P (.direct .pollTransmit) →
      encodeTransmit env X t = some (dst, b0) →
      sendGossip T.B ⟨g.coord.cmp, E.checksum, g.coord.ring⟩ nonce b0 = .ok b →
      E.routable dst = true → E.blocked dst = false →
      EMoveP P g (g.note (.datagram dst b))
  | listen (g : Engine I A C S) (c : C) (pool : List C) : g.listener = none →
      takeReady (E.io.reuseReady g.io) g.pool = some (c, pool) →
      EMoveP P g { g.note (.listen c) with pool := pool, io := E.io.listen g.io c, listener := some c }
  | refuse (g : Engine I A C S) (c : C) (peer : A) : g.listener = some c → E.io.acceptedPeer g.io c = some peer →
      E.blocked peer = true → EMoveP P g { (g.abort E c).give c with listener := none }
  | decline (g : Engine I A C S) (c : C) (peer : A) (now : Nat) : g.listener = some c →
      E.io.acceptedPeer g.io c = some peer → E.blocked peer = false →
      (g.call cfg env X T (.accept peer now)).2 = .accepted none →
      EMoveP P g { ((g.call cfg env X T (.accept peer now)).1.abort E c).give c with listener := none }
  | accept (g : Engine I A C S) (c : C) (peer : A) (x now : Nat) : g.listener = some c →
      E.io.acceptedPeer g.io c = some peer → E.blocked peer = false →
      (g.call cfg env X T (.accept peer now)).2 = .accepted (some x) →
      EMoveP P g ({ (g.call cfg env X T (.accept peer now)).1 with
        conns := g.conns.insert x { peer, socket := some c, state := .established }
        listener := none }.note (.accept x c peer))
  | connect (g : Engine I A C S) (x : Nat) (peer : A) (sid : Nat) :
      (g.call cfg env X T .pollAction).2 = .action (some (.connect x peer sid)) →
      EMoveP P g { (g.call cfg env X T .pollAction).1 with
        sids := g.sids.insert x sid
        conns := g.conns.insert x { peer, socket := none, state := .pendingDial } }
  | dialOk (g : Engine I A C S) (x : Nat) (k : Wired A C) (c : C) (pool : List C) : g.conns.get? x = some k →
      k.state = .pendingDial → takeReady (E.io.reuseReady g.io) g.pool = some (c, pool) →
      E.blocked k.peer = false → E.routable k.peer = true →
      (E.io.connect g.io c k.peer (49152 + x % 2 ^ 16 % 16384)).2 = true →
      EMoveP P g { g.note (.connect x c k.peer true) with
        pool := pool, io := (E.io.connect g.io c k.peer (49152 + x % 2 ^ 16 % 16384)).1
        conns := g.conns.insert x { k with socket := some c, state := .dialing } }
  | dialRefused (g : Engine I A C S) (x : Nat) (k : Wired A C) (c : C) (pool : List C) (now : Nat) :
      g.conns.get? x = some k →
      k.state = .pendingDial → takeReady (E.io.reuseReady g.io) g.pool = some (c, pool) →
      (E.blocked k.peer = true ∨ E.routable k.peer = false) →
      EMoveP P g ({ ({ g with pool := pool }.abort E c).give c with conns := g.conns.erase x }.call cfg env X T
        (.dialFailed x now)).1
  | dialError (g : Engine I A C S) (x : Nat) (k : Wired A C) (c : C) (pool : List C) (now : Nat) :
      g.conns.get? x = some k →
      k.state = .pendingDial → takeReady (E.io.reuseReady g.io) g.pool = some (c, pool) →
      E.blocked k.peer = false → E.routable k.peer = true →
      (E.io.connect g.io c k.peer (49152 + x % 2 ^ 16 % 16384)).2 = false →
      EMoveP P g ({ ({ g.note (.connect x c k.peer false) with
            pool := pool, io := (E.io.connect g.io c k.peer (49152 + x % 2 ^ 16 % 16384)).1 }.abort E c).give c with
          conns := g.conns.erase x }.call cfg env X T (.dialFailed x now)).1
  | shutdown (g : Engine I A C S) (x : Nat) :
      (g.call cfg env X T .pollAction).2 = .action (some (.down .shutdown x)) →
      EMoveP P g { (g.call cfg env X T .pollAction).1 with
        conns := g.conns.modify x (fun k => { k with finPending := true }) }
  | close (g : Engine I A C S) (x now : Nat) :
      (g.call cfg env X T .pollAction).2 = .action (some (.down .close x)) →
      EMoveP P g ((g.call cfg env X T .pollAction).1.teardown E x now)
  | abort (g : Engine I A C S) (x : Nat) :
      (g.call cfg env X T .pollAction).2 = .action (some (.down .abort x)) →
      EMoveP P g ((g.call cfg env X T .pollAction).1.abortExchange E x)
  | actionNone (g : Engine I A C S) : (g.call cfg env X T .pollAction).2 = .action none →
      EMoveP P g (g.call cfg env X T .pollAction).1
  | fetch (g : Engine I A C S) (x : Nat) (peer : A) (b : Bytes) (k : Wired A C) : g.coord.connects = [] →
      (g.call cfg env X T .pollTransport).2 = .bytes (some (x, peer, b)) → g.conns.get? x = some k →
      EMoveP P g { (g.call cfg env X T .pollTransport).1 with conns := g.conns.insert x { k with out := k.out ++ [b] } }
  | lost (g : Engine I A C S) (x : Nat) (peer : A) (b : Bytes) : g.coord.connects = [] →
      (g.call cfg env X T .pollTransport).2 = .bytes (some (x, peer, b)) → g.conns.get? x = none →
      EMoveP P g ((g.call cfg env X T .pollTransport).1.note (.lost x b))
  | fetchNone (g : Engine I A C S) : (g.call cfg env X T .pollTransport).2 = .bytes none →
      EMoveP P g (g.call cfg env X T .pollTransport).1
  | read (g : Engine I A C S) (x : Nat) (k : Wired A C) (c : C) (now : Nat) : g.conns.get? x = some k →
      k.socket = some c → (E.io.recv g.io c).2 ≠ [] →
      EMoveP P g ({ g.note (.read x c (E.io.recv g.io c).2) with io := (E.io.recv g.io c).1 }.call cfg env X T
        (.data x (E.io.recv g.io c).2 false now)).1
  | eof (g : Engine I A C S) (x : Nat) (k : Wired A C) (c : C) (now : Nat) : g.conns.get? x = some k →
      k.socket = some c → k.eofDelivered = false → E.io.recvFinished g.io c = true →
      EMoveP P g (({ g with conns := g.conns.insert x { k with eofDelivered := true } }.note (.eof x c)).call
        cfg env X T (.data x [] true now)).1
  | write (g : Engine I A C S) (x : Nat) (k : Wired A C) (c : C) : g.conns.get? x = some k → k.socket = some c →
      k.out ≠ [] → E.io.maySend g.io c = true →
      EMoveP P g { g with
        io := (writeOut E c g.io k.out).1, conns := g.conns.insert x { k with out := (writeOut E c g.io k.out).2.1 }
        log := g.log ++ (writeOut E c g.io k.out).2.2.map (fun w => (w.1, Act.write x c w.2)) }
  | promote (g : Engine I A C S) : EMoveP P g (g.promoteEstablished E)
  | shut (g : Engine I A C S) (io : S) (x : Nat) (k : Wired A C) (c : C) : g.conns.get? x = some k →
      k.socket = some c → finReady E io k = true →
      EMoveP P g ({ g with conns := g.conns.insert x { k with finPending := false, state := .halfClosed } }.close E io x c)
  | settle (g : Engine I A C S) (io : S) (now x : Nat) (k : Wired A C) (o : Outcome C) : g.conns.get? x = some k →
      outcome E io now k = some o → EMoveP P g (settle E io now g (x, o))
  | reap (g : Engine I A C S) (c : C) (now : Nat) : EMoveP P g (reapOne E now g c)

/-- A sequence of moves. -/
inductive EMovesP (P : XOp I A → Prop) : Engine I A C S → Engine I A C S → Prop
  | refl (g : Engine I A C S) : EMovesP P g g
  | snoc {a b c : Engine I A C S} : EMovesP P a b → EMoveP cfg env X T E P b c → EMovesP P a c

/-- One move, with any call the engine makes by itself or for its user. -/
abbrev EMove : Engine I A C S → Engine I A C S → Prop := EMoveP cfg env X T E (Plain E)

/-- A sequence of such moves. -/
abbrev EMoves : Engine I A C S → Engine I A C S → Prop := EMovesP cfg env X T E (Plain E)
end

section
variable [DecidableEq I] [DecidableEq A] [DecidableEq C]
variable {cfg : Cfg I A} {env : Env I A} {X : XCfg} {T : TEnv} {E : EEnv S C A} {P : XOp I A → Prop}

theorem EMovesP.one {a b : Engine I A C S} (h : EMoveP cfg env X T E P a b) : EMovesP cfg env X T E P a b := .snoc (.refl a) h

theorem EMovesP.trans {a b c : Engine I A C S} (h : EMovesP cfg env X T E P a b) (h2 : EMovesP cfg env X T E P b c) :
    EMovesP cfg env X T E P a c := by
  induction h2 with
  | refl => exact h
  | snoc _ hm ih => exact ih.snoc hm

theorem EMovesP.inv {Q : Engine I A C S → Prop} {a b : Engine I A C S} (h : EMovesP cfg env X T E P a b)
    (hp : ∀ g g', EMoveP cfg env X T E P g g' → Q g → Q g') (ha : Q a) : Q b := by
  induction h with
  | refl => exact ha
  | snoc _ hm ih => exact hp _ _ hm ih

theorem EMoveP.mono {Q : XOp I A → Prop} (hPQ : ∀ op, P op → Q op) {a b : Engine I A C S}
    (h : EMoveP cfg env X T E P a b) : EMoveP cfg env X T E Q a b := by
  cases h with
  | aside s => exact .aside s
  | reseed seeds h => exact .reseed _ seeds (fun a ha now => hPQ _ (h a ha now))
  | call op h => exact .call _ op (hPQ _ h)
  | packet src m now h => exact .packet _ src m now h
  | event => exact .event _
  | datagram t dst b0 nonce b h0 h1 h2 h3 h4 => exact .datagram _ t dst b0 nonce b (hPQ _ h0) h1 h2 h3 h4
  | listen c pool h1 h2 => exact .listen _ c pool h1 h2
  | refuse c peer h1 h2 h3 => exact .refuse _ c peer h1 h2 h3
  | decline c peer now h1 h2 h3 h4 => exact .decline _ c peer now h1 h2 h3 h4
  | accept c peer x now h1 h2 h3 h4 => exact .accept _ c peer x now h1 h2 h3 h4
  | connect x peer sid h => exact .connect _ x peer sid h
  | dialOk x k c pool h1 h2 h3 h4 h5 h6 => exact .dialOk _ x k c pool h1 h2 h3 h4 h5 h6
  | dialRefused x k c pool now h1 h2 h3 h4 => exact .dialRefused _ x k c pool now h1 h2 h3 h4
  | dialError x k c pool now h1 h2 h3 h4 h5 h6 => exact .dialError _ x k c pool now h1 h2 h3 h4 h5 h6
  | shutdown x h => exact .shutdown _ x h
  | close x now h => exact .close _ x now h
  | abort x h => exact .abort _ x h
  | actionNone h => exact .actionNone _ h
  | fetch x peer b k h1 h2 h3 => exact .fetch _ x peer b k h1 h2 h3
  | lost x peer b h1 h2 h3 => exact .lost _ x peer b h1 h2 h3
  | fetchNone h => exact .fetchNone _ h
  | read x k c now h1 h2 h3 => exact .read _ x k c now h1 h2 h3
  | eof x k c now h1 h2 h3 h4 => exact .eof _ x k c now h1 h2 h3 h4
  | write x k c h1 h2 h3 h4 => exact .write _ x k c h1 h2 h3 h4
  | promote => exact .promote _
  | shut io x k c h1 h2 h3 => exact .shut _ io x k c h1 h2 h3
  | settle io now x k o h1 h2 => exact .settle _ io now x k o h1 h2
  | reap c now => exact .reap _ c now

theorem EMovesP.mono {Q : XOp I A → Prop} (hPQ : ∀ op, P op → Q op) {a b : Engine I A C S}
    (h : EMovesP cfg env X T E P a b) : EMovesP cfg env X T E Q a b := by
  induction h with
  | refl => exact .refl _
  | snoc _ hm ih => exact ih.snoc (hm.mono hPQ)

theorem EMovesP.plain {a b : Engine I A C S} (h : EMovesP cfg env X T E (Tame E) a b) : EMoves cfg env X T E a b :=
  h.mono (fun _ => tame_plain)

theorem foldl_moves {α : Type} (f : Engine I A C S → α → Engine I A C S)
    (hf : ∀ g a, EMovesP cfg env X T E P g (f g a)) (l : List α) (g : Engine I A C S) :
    EMovesP cfg env X T E P g (l.foldl f g) := by
  induction l generalizing g with
  | nil => exact .refl _
  | cons a l ih => exact (hf g a).trans (ih _)

theorem aside_tick (g : Engine I A C S) (n : Nat) : Aside g { g with tick := n } := ⟨rfl, rfl, rfl, rfl, rfl, rfl, rfl, rfl, rfl, rfl, Nat.le_refl _⟩
theorem aside_io (g : Engine I A C S) (io : S) : Aside g { g with io := io } := ⟨rfl, rfl, rfl, rfl, rfl, rfl, rfl, rfl, rfl, rfl, Nat.le_refl _⟩
theorem aside_cut (g : Engine I A C S) (b : Bool) : Aside g { g with cut := b } := ⟨rfl, rfl, rfl, rfl, rfl, rfl, rfl, rfl, rfl, rfl, Nat.le_refl _⟩
theorem aside_sealed (g : Engine I A C S) : Aside g { g with sealed := g.sealed + 1 } := ⟨rfl, rfl, rfl, rfl, rfl, rfl, rfl, rfl, rfl, rfl, Nat.le_succ _⟩

/-! ### The keys of the connections stay distinct -/

theorem promote_keys (g : Engine I A C S) : (g.promoteEstablished E).conns.keys = g.conns.keys := by
  simp only [promoteEstablished, Map.keys, List.map_map]
  apply List.map_congr_left
  intro e _
  simp only [Function.comp]
  split <;> rfl

theorem promote_get (g : Engine I A C S) (x : Nat) : (g.promoteEstablished E).conns.get? x =
    (g.conns.get? x).map (fun k =>
      if k.state = .dialing ∧ k.socket.any (E.io.maySend g.io) then { k with state := .established } else k) := by
  simp only [promoteEstablished]
  generalize g.io = io
  induction g.conns with
  | nil => rfl
  | cons e m ih =>
    obtain ⟨y, k⟩ := e
    simp only [List.map_cons]
    by_cases hc : k.state = .dialing ∧ k.socket.any (E.io.maySend io)
    · rw [if_pos hc, Map.get?_cons, Map.get?_cons, ih]
      by_cases h : y = x
      · simp [h, hc]
      · simp [h]
    · rw [if_neg hc, Map.get?_cons, Map.get?_cons, ih]
      by_cases h : y = x
      · simp only [h, if_true, Option.map_some, if_neg hc]
      · simp [h]

theorem nodup_teardown {g : Engine I A C S} (h : g.conns.NodupKeys) (x now : Nat) :
    (g.teardown E x now).conns.NodupKeys := by
  unfold teardown
  split
  · exact h
  · split
    · exact Map.nodup_erase h x
    · split
      · exact Map.nodup_erase h x
      · split
        · exact Map.nodup_erase h x
        · split
          · exact Map.nodup_insert h x _
          · split
            · exact Map.nodup_erase h x
            · exact Map.nodup_erase h x

theorem nodup_abortExchange {g : Engine I A C S} (h : g.conns.NodupKeys) (x : Nat) :
    (g.abortExchange E x).conns.NodupKeys := by
  unfold abortExchange
  split
  · exact h
  · simp only []
    split <;> exact Map.nodup_erase h x

theorem nodup_settle {g : Engine I A C S} (h : g.conns.NodupKeys) (io : S) (now : Nat) (a : Nat × Outcome C) :
    (Engine.settle E io now g a).conns.NodupKeys := by
  unfold Engine.settle
  split
  · exact Map.nodup_erase h _
  · exact Map.nodup_erase h _
  · rw [Map.NodupKeys, Map.keys_modify]; exact h

theorem reapOne_conns (g : Engine I A C S) (now : Nat) (c : C) : (reapOne E now g c).conns = g.conns := by
  unfold reapOne
  split
  · rfl
  · split
    · rfl
    · split <;> rfl

theorem event_conns (g : Engine I A C S) : (g.act cfg env X T E .pollEvent).1.conns = g.conns := by
  simp only [act, call]
  split <;> (rename_i h; obtain ⟨h1, _⟩ := Prod.mk.inj h; subst h1; rfl)

theorem nodup_move {g g' : Engine I A C S} (hm : EMoveP cfg env X T E P g g') (h : g.conns.NodupKeys) :
    g'.conns.NodupKeys := by
  cases hm with
  | aside s => rw [s.conns]; exact h
  | reseed => exact h
  | call => exact h
  | packet => exact h
  | event => rw [event_conns]; exact h
  | datagram => exact h
  | listen => exact h
  | refuse => exact h
  | decline => exact h
  | accept => exact Map.nodup_insert h _ _
  | connect => exact Map.nodup_insert h _ _
  | dialOk => exact Map.nodup_insert h _ _
  | dialRefused => exact Map.nodup_erase h _
  | dialError => exact Map.nodup_erase h _
  | shutdown x => rw [Map.NodupKeys]; simp only [Map.keys_modify]; exact h
  | close x now => exact nodup_teardown (g := (g.call cfg env X T .pollAction).1) h x now
  | abort x => exact nodup_abortExchange (g := (g.call cfg env X T .pollAction).1) h x
  | actionNone => exact h
  | fetch => exact Map.nodup_insert h _ _
  | lost => exact h
  | fetchNone => exact h
  | read => exact h
  | eof => exact Map.nodup_insert h _ _
  | write => exact Map.nodup_insert h _ _
  | promote => show Map.NodupKeys _; rw [Map.NodupKeys, promote_keys]; exact h
  | shut => exact Map.nodup_insert h _ _
  | settle io now x k o => exact nodup_settle h io now (x, o)
  | reap c now => rw [reapOne_conns]; exact h

theorem nodup_moves {g g' : Engine I A C S} (hm : EMovesP cfg env X T E P g g') (h : g.conns.NodupKeys) :
    g'.conns.NodupKeys := hm.inv (fun _ _ h1 h2 => nodup_move h1 h2) h

/-! ### The functions as moves -/

theorem reapClosing_moves (g : Engine I A C S) (now : Nat) : EMovesP cfg env X T E (Tame E) g (g.reapClosing E now) :=
  (EMovesP.one (.aside (aside_tick g _))).trans (foldl_moves _ (fun g c => .one (.reap g c now)) _ _)

theorem ensureListener_moves (g : Engine I A C S) : EMovesP cfg env X T E (Tame E) g (g.ensureListener E) := by
  unfold ensureListener
  split
  · exact .refl _
  · next hl =>
    split
    · exact .refl _
    · next c pool hp => exact .one (.listen g c pool hl hp)

theorem checkListener_moves (g : Engine I A C S) (now : Nat) : EMovesP cfg env X T E (Tame E) g (g.checkListener cfg env X T E now) := by
  unfold checkListener
  split
  · exact .refl _
  · next c hl =>
    split
    · exact .refl _
    · next peer hp =>
      split
      · next hb => exact (EMovesP.one (.refuse g c peer hl hp hb)).trans (ensureListener_moves _)
      · next hb =>
        have hb : E.blocked peer = false := by simpa using hb
        have hc : (g.call cfg env X T (.accept peer now)).2 = .accepted (g.coord.accept cfg X peer now).2 := rfl
        split
        · next g1 x hx =>
          have h1 : (g.call cfg env X T (.accept peer now)).1 = g1 := by rw [hx]
          have h2 : (g.call cfg env X T (.accept peer now)).2 = .accepted (some x) := by rw [hx]
          subst h1
          exact (EMovesP.one (.accept g c peer x now hl hp hb h2)).trans (ensureListener_moves _)
        · next g1 r hx hne =>
          have h1 : (g.call cfg env X T (.accept peer now)).1 = g1 := by rw [hne]
          have h2 : (g.call cfg env X T (.accept peer now)).2 = r := by rw [hne]
          have h3 : (g.call cfg env X T (.accept peer now)).2 = .accepted none := by
            cases ho : (g.coord.accept cfg X peer now).2 with
            | none => rw [hc, ho]
            | some x => rw [hc, ho] at h2; exact (hx x h2.symm).elim
          subst h1
          exact (EMovesP.one (.decline g c peer now hl hp hb h3)).trans (ensureListener_moves _)

/-- A connection waiting for a socket is given the ready one and dialled. -/
theorem dial_moves {g : Engine I A C S} (hn : g.conns.NodupKeys) {x : Nat} {k : Wired A C} {c : C} {pool : List C}
    (now : Nat) (hk : g.conns.get? x = some k) (hs : k.state = .pendingDial)
    (hp : takeReady (E.io.reuseReady g.io) g.pool = some (c, pool)) :
    EMovesP cfg env X T E (Tame E) g ({ g with pool := pool, conns := g.conns.modify x (fun k =>
      { k with socket := some c, state := .dialing }) }.dial cfg env X T E x k.peer c now) := by
  have hmod := Map.modify_eq_insert hn (fun k : Wired A C => { k with socket := some c, state := .dialing }) hk
  unfold dial
  split
  · next hb =>
    refine .one ?_
    have := EMoveP.dialRefused (P := Tame E) (cfg := cfg) (env := env) (X := X) (T := T) g x k c pool now hk hs hp (.inl hb)
    simpa [dialFail, Engine.abort, give, note, Map.erase_modify] using this
  · next hb =>
    split
    · next hr =>
      refine .one ?_
      have := EMoveP.dialRefused (P := Tame E) (cfg := cfg) (env := env) (X := X) (T := T) g x k c pool now hk hs hp
        (.inr (by simpa using hr))
      simpa [dialFail, Engine.abort, give, note, Map.erase_modify] using this
    · next hr =>
      simp only []
      split
      · next hc =>
        refine .one ?_
        have := EMoveP.dialOk (P := Tame E) (cfg := cfg) (env := env) (X := X) (T := T) g x k c pool hk hs hp (by simpa using hb)
          (by simpa using hr) hc
        rw [← hmod] at this
        rw [hc]
        exact this
      · next hc =>
        refine .one ?_
        have := EMoveP.dialError (P := Tame E) (cfg := cfg) (env := env) (X := X) (T := T) g x k c pool now hk hs hp (by simpa using hb)
          (by simpa using hr) (by simpa using hc)
        have hc : (E.io.connect g.io c k.peer (49152 + x % 2 ^ 16 % 16384)).2 = false := by simpa using hc
        rw [hc]
        unfold dialFail
        simp only [Engine.abort, give, note, Map.erase_modify] at this ⊢
        exact this

/-- A dial leaves the other connections as they are. -/
theorem dial_other (g : Engine I A C S) (x : Nat) (peer : A) (c : C) (now : Nat) {y : Nat} (h : y ≠ x) :
    (g.dial cfg env X T E x peer c now).conns.get? y = g.conns.get? y := by
  unfold dial
  have hf : ∀ g : Engine I A C S, (g.dialFail cfg env X T E x c now).conns.get? y = g.conns.get? y := by
    intro g
    show (Map.erase g.conns x).get? y = _
    rw [Map.get?_erase, if_neg (fun e => h e.symm)]
  split
  · exact hf g
  · split
    · exact hf g
    · simp only []
      split
      · rfl
      · exact hf _

theorem assign_moves (now : Nat) (l : List (Nat × A)) (g : Engine I A C S) (hn : g.conns.NodupKeys)
    (hl : (l.map Prod.fst).Nodup)
    (hw : ∀ e ∈ l, ∃ k, g.conns.get? e.1 = some k ∧ k.state = .pendingDial ∧ k.peer = e.2) :
    EMovesP cfg env X T E (Tame E) g (assign cfg env X T E now l g) := by
  induction l generalizing g with
  | nil => exact .refl _
  | cons e l ih =>
    obtain ⟨x, peer⟩ := e
    unfold assign
    split
    · exact .refl _
    · next c pool hp =>
      obtain ⟨k, h1, h2, h3⟩ := hw _ (List.mem_cons_self ..)
      simp only at h1 h3
      subst h3
      have hm := dial_moves (cfg := cfg) (env := env) (X := X) (T := T) hn now h1 h2 hp
      simp only [List.map_cons, List.nodup_cons] at hl
      refine hm.trans (ih _ (nodup_moves hm hn) hl.2 ?_)
      intro e he
      obtain ⟨k', h4, h5⟩ := hw e (List.mem_cons_of_mem _ he)
      have hne : e.1 ≠ x := fun h => hl.1 (h ▸ List.mem_map_of_mem (f := Prod.fst) he)
      refine ⟨k', ?_, h5⟩
      rw [dial_other _ _ _ _ _ hne]
      simp only []
      rw [Map.get?_modify, if_neg (fun h => hne h.symm), h4]


theorem idInserts_perm (l : List Nat) : ∀ d : List Nat, (l ++ d).Nodup →
    (l.foldl (fun d x => idInsert x d) d).Perm (l ++ d) := by
  induction l with
  | nil => intro d _; exact .refl _
  | cons a l ih =>
    intro d h
    simp only [List.foldl_cons]
    have hp : (idInsert a d).Perm (a :: d) := by
      refine idInsert_perm (fun hm => ?_)
      simp only [List.cons_append, List.nodup_cons, List.mem_append] at h
      exact h.1 (.inr hm)
    have hq : (l ++ idInsert a d).Perm (a :: l ++ d) := (hp.append_left l).trans List.perm_middle
    exact (ih _ (hq.nodup_iff.2 h)).trans hq

theorem waiting_spec {g : Engine I A C S} (hn : g.conns.NodupKeys) :
    (g.waiting.map Prod.fst).Nodup ∧
    (∀ e ∈ g.waiting, ∃ k, g.conns.get? e.1 = some k ∧ k.state = .pendingDial ∧ k.peer = e.2) ∧
    (∀ x k, g.conns.get? x = some k → k.state = .pendingDial → x ∈ g.waiting.map Prod.fst) := by
  unfold waiting
  have hl : ((g.conns.filter (fun e => e.2.state = .pendingDial)).map Prod.fst).Nodup :=
    List.Nodup.sublist (List.filter_sublist.map _) hn
  have hp := idInserts_perm _ [] (by rw [List.append_nil]; exact hl)
  rw [List.append_nil] at hp
  have hmem : ∀ x, x ∈ ((g.conns.filter (fun e => e.2.state = .pendingDial)).map Prod.fst).foldl
      (fun d x => idInsert x d) [] ↔ ∃ k, g.conns.get? x = some k ∧ k.state = .pendingDial := by
    intro x
    rw [hp.mem_iff]
    constructor
    · intro h
      obtain ⟨⟨y, k⟩, h1, rfl⟩ := List.mem_map.1 h
      obtain ⟨h1, h2⟩ := List.mem_filter.1 h1
      exact ⟨k, Map.get?_of_mem hn h1, by simpa using h2⟩
    · rintro ⟨k, h1, h2⟩
      exact List.mem_map.2 ⟨(x, k), List.mem_filter.2 ⟨Map.mem_of_get? h1, by simpa using h2⟩, rfl⟩
  generalize ((g.conns.filter (fun e => e.2.state = .pendingDial)).map Prod.fst).foldl (fun d x => idInsert x d) [] = l at hp hmem
  have hnd := hp.nodup_iff.2 hl
  have hfst : ∀ l : List Nat, ((l.filterMap (fun x => (g.conns.get? x).map (fun k => (x, k.peer)))).map Prod.fst).Sublist l := by
    intro l
    induction l with
    | nil => exact .slnil
    | cons a l ih =>
      cases h : g.conns.get? a with
      | none => simpa [List.filterMap_cons, h] using ih.cons a
      | some k => simpa [List.filterMap_cons, h] using ih
  refine ⟨hnd.sublist (hfst l), ?_, ?_⟩
  · intro e he
    obtain ⟨x, h1, h2⟩ := List.mem_filterMap.1 he
    obtain ⟨k, h3, h4⟩ := (hmem x).1 h1
    rw [h3] at h2
    simp only [Option.map_some, Option.some.injEq] at h2
    subst h2
    exact ⟨k, h3, h4, rfl⟩
  · intro x k h1 h2
    exact List.mem_map.2 ⟨(x, k.peer), List.mem_filterMap.2 ⟨x, (hmem x).2 ⟨k, h1, h2⟩, by rw [h1]; rfl⟩, rfl⟩

theorem rebalance_moves {g : Engine I A C S} (hn : g.conns.NodupKeys) (now : Nat) :
    EMovesP cfg env X T E (Tame E) g (g.rebalance cfg env X T E now) := by
  have h1 := ensureListener_moves (cfg := cfg) (env := env) (X := X) (T := T) (E := E) g
  have hn' := nodup_moves h1 hn
  obtain ⟨h2, h3, _⟩ := waiting_spec hn'
  exact h1.trans (assign_moves now _ _ hn' h2 h3)

theorem drainActions_moves (now : Nat) (fuel : Nat) (g : Engine I A C S) (hn : g.conns.NodupKeys) :
    EMovesP cfg env X T E (Tame E) g (drainActions cfg env X T E now fuel g) := by
  induction fuel generalizing g with
  | zero => exact .one (.aside (aside_cut g true))
  | succ fuel ih =>
    unfold drainActions
    split
    · next g1 x peer sid h =>
      have h1 : (g.call cfg env X T .pollAction).1 = g1 := by rw [h]
      have h2 : (g.call cfg env X T .pollAction).2 = .action (some (.connect x peer sid)) := by rw [h]
      have hm := EMoveP.connect (P := Tame E) (cfg := cfg) (env := env) (X := X) (T := T) (E := E) g x peer sid h2
      have hg1 : g1.conns = g.conns ∧ g1.sids = g.sids ∧ g1.io = g.io ∧ g1.pool = g.pool := by
        subst h1; exact ⟨rfl, rfl, rfl, rfl⟩
      rw [h1] at hm
      simp only []
      split
      · next c pool hp =>
        have hd := dial_moves (cfg := cfg) (env := env) (X := X) (T := T) (E := E)
          (g := { g1 with sids := g.sids.insert x sid, conns := g.conns.insert x { peer, socket := none, state := .pendingDial } })
          (Map.nodup_insert hn x _) (x := x) (k := { peer, socket := none, state := .pendingDial }) (c := c) (pool := pool) now
          (Map.get?_insert_self ..) rfl hp
        simp only [Map.modify_insert hn] at hd
        rw [hg1.1, hg1.2.1]
        exact ((EMovesP.one hm).trans hd).trans (ih _ (nodup_moves ((EMovesP.one hm).trans hd) hn))
      · rw [hg1.1, hg1.2.1]
        exact (EMovesP.one hm).trans (ih _ (nodup_move hm hn))
    · next g1 x h =>
      have h1 : (g.call cfg env X T .pollAction).1 = g1 := by rw [h]
      have h2 : (g.call cfg env X T .pollAction).2 = .action (some (.down .shutdown x)) := by rw [h]
      have hm := EMoveP.shutdown (P := Tame E) (cfg := cfg) (env := env) (X := X) (T := T) (E := E) g x h2
      have hg1 : g1.conns = g.conns := by subst h1; rfl
      rw [h1] at hm
      rw [hg1]
      exact (EMovesP.one hm).trans (ih _ (nodup_move hm hn))
    · next g1 x h =>
      have h1 : (g.call cfg env X T .pollAction).1 = g1 := by rw [h]
      have h2 : (g.call cfg env X T .pollAction).2 = .action (some (.down .close x)) := by rw [h]
      have hm := EMoveP.close (P := Tame E) (cfg := cfg) (env := env) (X := X) (T := T) (E := E) g x now h2
      rw [h1] at hm
      exact (EMovesP.one hm).trans (ih _ (nodup_move hm hn))
    · next g1 x h =>
      have h1 : (g.call cfg env X T .pollAction).1 = g1 := by rw [h]
      have h2 : (g.call cfg env X T .pollAction).2 = .action (some (.down .abort x)) := by rw [h]
      have hm := EMoveP.abort (P := Tame E) (cfg := cfg) (env := env) (X := X) (T := T) (E := E) g x h2
      rw [h1] at hm
      exact (EMovesP.one hm).trans (ih _ (nodup_move hm hn))
    · next g1 o e1 e2 e3 e4 h =>
      have h1 : (g.call cfg env X T .pollAction).1 = g1 := by rw [h]
      have h2 : (g.call cfg env X T .pollAction).2 = o := by rw [h]
      have h3 : (g.call cfg env X T .pollAction).2 = .action none := by
        have hc : (g.call cfg env X T .pollAction).2 = .action g.coord.pollAction.2 := rfl
        cases ha : g.coord.pollAction.2 with
        | none => rw [hc, ha]
        | some a =>
          rw [ha] at hc
          rw [hc] at h2
          cases a with
          | connect x peer sid => exact (e1 x peer sid h2.symm).elim
          | down t x =>
            cases t with
            | shutdown => exact (e2 x h2.symm).elim
            | close => exact (e3 x h2.symm).elim
            | abort => exact (e4 x h2.symm).elim
      have hm := EMoveP.actionNone (P := Tame E) (cfg := cfg) (env := env) (X := X) (T := T) (E := E) g h3
      rw [h1] at hm
      exact .one hm

/-- The queue of dials is empty once the actions were drained. -/
theorem drainActions_connects (now : Nat) (fuel : Nat) (g : Engine I A C S)
    (hc : (drainActions cfg env X T E now fuel g).cut = false) :
    (drainActions cfg env X T E now fuel g).coord.connects = [] := by
  induction fuel generalizing g with
  | zero => cases hc
  | succ fuel ih =>
    unfold drainActions at hc ⊢
    split at hc
    · next g1 x peer sid h =>
      simp only [] at hc ⊢
      split at hc
      · exact ih _ hc
      · exact ih _ hc
    · exact ih _ hc
    · exact ih _ hc
    · exact ih _ hc
    · next g1 o e1 e2 e3 e4 h =>
      have h1 : (g.call cfg env X T .pollAction).1 = g1 := by rw [h]
      have h2 : (g.call cfg env X T .pollAction).2 = o := by rw [h]
      subst h1
      have hp : (g.call cfg env X T .pollAction).2 = .action g.coord.pollAction.2 := rfl
      show g.coord.pollAction.1.connects = []
      unfold Coord.pollAction at hp ⊢
      split at hp
      · next y peer sid rest hq => rw [hp] at h2; exact (e1 _ _ _ h2.symm).elim
      · next hq =>
        split at hp
        · exact hq
        · exact hq

/-- No read changes which socket an exchange has. -/
def SameSockets (g g' : Engine I A C S) : Prop :=
  ∀ x, (g'.conns.get? x).bind Wired.socket = (g.conns.get? x).bind Wired.socket

theorem readAll_moves (now x : Nat) (c : C) (fuel : Nat) (g : Engine I A C S)
    (hk : (g.conns.get? x).bind Wired.socket = some c) :
    EMovesP cfg env X T E (Tame E) g (readAll cfg env X T E now x c fuel g) ∧
      SameSockets g (readAll cfg env X T E now x c fuel g) := by
  induction fuel generalizing g with
  | zero => exact ⟨.one (.aside (aside_cut g true)), fun _ => rfl⟩
  | succ fuel ih =>
    obtain ⟨k, h1, h2⟩ := Option.bind_eq_some_iff.1 hk
    unfold readAll
    simp only []
    split
    · next hb =>
      have hm := EMoveP.read (P := Tame E) (cfg := cfg) (env := env) (X := X) (T := T) (E := E) g x k c now h1 h2 hb
      obtain ⟨h3, h4⟩ := ih ({ g.note (.read x c (E.io.recv g.io c).2) with io := (E.io.recv g.io c).1 }.call cfg env X T
        (.data x (E.io.recv g.io c).2 false now)).1 hk
      exact ⟨(EMovesP.one hm).trans h3, h4⟩
    · have ha : EMovesP cfg env X T E (Tame E) g { g with io := (E.io.recv g.io c).1 } := .one (.aside (aside_io g _))
      split
      · exact ⟨ha, fun _ => rfl⟩
      · next hf =>
        rw [h1]
        simp only []
        split
        · exact ⟨ha, fun _ => rfl⟩
        · next he =>
          refine ⟨ha.snoc (.eof _ x k c now h1 h2 (by simpa using he) (by simpa using hf)), ?_⟩
          intro y
          simp only [call, note, Map.get?_insert]
          split
          · next e => subst e; rw [h1]; rfl
          · rfl

theorem pumpIn_moves (g : Engine I A C S) (now : Nat) : EMovesP cfg env X T E (Tame E) g (g.pumpIn cfg env X T E now) := by
  unfold pumpIn
  refine (EMovesP.one (.aside (aside_tick g (g.tick + 1)))).trans ?_
  have hl : ∀ e ∈ (E.order g.tick g.conns.keys).filterMap (fun x =>
      ((g.conns.get? x).bind Wired.socket).map (fun c => (x, c))),
      (({ g with tick := g.tick + 1 } : Engine I A C S).conns.get? e.1).bind Wired.socket = some e.2 := by
    intro e he
    obtain ⟨x, _, h2⟩ := List.mem_filterMap.1 he
    obtain ⟨c, h3, h4⟩ := Option.map_eq_some_iff.1 h2
    subst h4; exact h3
  revert hl
  generalize (E.order g.tick g.conns.keys).filterMap (fun x =>
      ((g.conns.get? x).bind Wired.socket).map (fun c => (x, c))) = l
  generalize ({ g with tick := g.tick + 1 } : Engine I A C S) = g
  intro hl
  induction l generalizing g with
  | nil => exact .refl _
  | cons e l ih =>
    simp only [List.foldl_cons]
    split
    · exact ih g (fun e he => hl e (List.mem_cons_of_mem _ he))
    · obtain ⟨h1, h2⟩ := readAll_moves (cfg := cfg) (env := env) (X := X) (T := T) (E := E) now e.1 e.2 E.fuel g
        (hl e (List.mem_cons_self ..))
      exact h1.trans (ih _ (fun e' he => by rw [h2]; exact hl e' (List.mem_cons_of_mem _ he)))

theorem pollTransport_connects (c : Coord I A) : c.pollTransport.1.connects = c.connects := by
  unfold Coord.pollTransport; split <;> rfl

theorem fetchOut_moves (fuel : Nat) (g : Engine I A C S) (hc : g.coord.connects = []) :
    EMovesP cfg env X T E (Tame E) g (fetchOut cfg env X T fuel g) := by
  induction fuel generalizing g with
  | zero => exact .refl _
  | succ fuel ih =>
    unfold fetchOut
    have hcc : (g.call cfg env X T .pollTransport).1.coord.connects = [] :=
      (pollTransport_connects g.coord).trans hc
    split
    · next g1 x peer b h =>
      have h1 : (g.call cfg env X T .pollTransport).1 = g1 := by rw [h]
      have h2 : (g.call cfg env X T .pollTransport).2 = .bytes (some (x, peer, b)) := by rw [h]
      have hg : g1.conns = g.conns := by subst h1; rfl
      rw [h1] at hcc
      split
      · next hn =>
        rw [hg] at hn
        have hm := EMoveP.lost (P := Tame E) (cfg := cfg) (env := env) (X := X) (T := T) (E := E) g x peer b hc h2 hn
        rw [h1] at hm
        exact (EMovesP.one hm).trans (ih _ hcc)
      · next k hk =>
        rw [hg] at hk
        have hm := EMoveP.fetch (P := Tame E) (cfg := cfg) (env := env) (X := X) (T := T) (E := E) g x peer b k hc h2 hk
        rw [h1] at hm
        rw [hg]
        exact (EMovesP.one hm).trans (ih _ hcc)
    · next g1 o e1 h =>
      have h1 : (g.call cfg env X T .pollTransport).1 = g1 := by rw [h]
      have h2 : (g.call cfg env X T .pollTransport).2 = o := by rw [h]
      have h3 : (g.call cfg env X T .pollTransport).2 = .bytes none := by
        have hp : (g.call cfg env X T .pollTransport).2 = .bytes g.coord.pollTransport.2 := rfl
        cases ha : g.coord.pollTransport.2 with
        | none => rw [hp, ha]
        | some a => rw [hp, ha] at h2; exact (e1 _ _ _ h2.symm).elim
      have hm := EMoveP.fetchNone (P := Tame E) (cfg := cfg) (env := env) (X := X) (T := T) (E := E) g h3
      rw [h1] at hm
      exact .one hm

theorem pumpOut_moves (g : Engine I A C S) (hc : g.coord.connects = []) :
    EMovesP cfg env X T E (Tame E) g (g.pumpOut cfg env X T E) := by
  unfold pumpOut
  simp only []
  refine ((fetchOut_moves _ g hc).snoc (.aside (aside_tick _ _))).trans (foldl_moves _ (fun g x => ?_) _ _)
  unfold writeOne
  split
  · exact .refl _
  · next k hk =>
    split
    · exact .refl _
    · next c hs =>
      split
      · exact .refl _
      · next hne =>
        simp only [not_or] at hne
        exact .one (.write g x k c hk hs hne.1 (by simpa using hne.2))

theorem flushShutdowns_moves {g : Engine I A C S} (hn : g.conns.NodupKeys) :
    EMovesP cfg env X T E (Tame E) g (g.flushShutdowns E) := by
  unfold flushShutdowns
  refine (EMovesP.one (.aside (aside_tick g (g.tick + 1)))).trans ?_
  have hl : ∀ x ∈ (E.order g.tick g.conns.keys).filter (fun x => (g.conns.get? x).any (finReady E g.io)),
      (({ g with tick := g.tick + 1 } : Engine I A C S).conns.get? x).any (finReady E g.io) = true := by
    intro x hx
    exact (List.mem_filter.1 hx).2
  have hd : ((E.order g.tick g.conns.keys).filter (fun x => (g.conns.get? x).any (finReady E g.io))).Nodup :=
    ((E.order_perm _ _).nodup_iff.2 hn).sublist List.filter_sublist
  revert hl hd
  generalize (E.order g.tick g.conns.keys).filter (fun x => (g.conns.get? x).any (finReady E g.io)) = l
  generalize ({ g with tick := g.tick + 1 } : Engine I A C S) = g'
  generalize g.io = io
  intro hl hd
  clear hn
  generalize g' = g at hl ⊢
  induction l generalizing g with
  | nil => exact .refl _
  | cons x l ih =>
    simp only [List.foldl_cons]
    have hx := hl x (List.mem_cons_self ..)
    obtain ⟨hd1, hd2⟩ := List.nodup_cons.1 hd
    have hrest : ∀ y ∈ l, (g.conns.get? y).any (finReady E io) = true := fun y hy => hl y (List.mem_cons_of_mem _ hy)
    unfold shutOne
    split
    · exact ih hd2 g hrest
    · next k hk =>
      split
      · exact ih hd2 g hrest
      · next c hs =>
        rw [hk] at hx
        refine (EMovesP.one (.shut g io x k c hk hs hx)).trans (ih hd2 _ ?_)
        intro y hy
        simp only [Engine.close, Map.get?_insert]
        have hne : ¬ x = y := fun e => hd1 (e ▸ hy)
        rw [if_neg hne]
        exact hrest y hy

omit [DecidableEq I] [DecidableEq A] [DecidableEq C] in
theorem fst_sublist {β : Type} (f : Nat → Option β) (l : List Nat) :
    ((l.filterMap (fun x => (f x).map (fun o => (x, o)))).map Prod.fst).Sublist l := by
  induction l with
  | nil => exact .slnil
  | cons a l ih =>
    cases h : f a with
    | none => simpa [List.filterMap_cons, h] using ih.cons a
    | some k => simpa [List.filterMap_cons, h] using ih

theorem flushClosing_moves {g : Engine I A C S} (hn : g.conns.NodupKeys) (now : Nat) :
    EMovesP cfg env X T E (Tame E) g (g.flushClosing E now) := by
  unfold flushClosing
  refine (EMovesP.one (.aside (aside_tick g (g.tick + 1)))).trans ?_
  have hl : ∀ e ∈ (E.order g.tick g.conns.keys).filterMap (fun x =>
      ((g.conns.get? x).bind (outcome E g.io now)).map (fun o => (x, o))),
      ∃ k, ({ g with tick := g.tick + 1 } : Engine I A C S).conns.get? e.1 = some k ∧ outcome E g.io now k = some e.2 := by
    intro e he
    obtain ⟨x, _, h2⟩ := List.mem_filterMap.1 he
    obtain ⟨o, h3, h4⟩ := Option.map_eq_some_iff.1 h2
    obtain ⟨k, h5, h6⟩ := Option.bind_eq_some_iff.1 h3
    subst h4; exact ⟨k, h5, h6⟩
  have hd : (((E.order g.tick g.conns.keys).filterMap (fun x =>
      ((g.conns.get? x).bind (outcome E g.io now)).map (fun o => (x, o)))).map Prod.fst).Nodup := by
    refine ((E.order_perm g.tick _).nodup_iff.2 hn).sublist ?_
    exact fst_sublist (fun x => (g.conns.get? x).bind (outcome E g.io now)) _
  revert hl hd
  generalize (E.order g.tick g.conns.keys).filterMap (fun x =>
      ((g.conns.get? x).bind (outcome E g.io now)).map (fun o => (x, o))) = l
  generalize ({ g with tick := g.tick + 1 } : Engine I A C S) = g'
  generalize g.io = io
  intro hl hd
  clear hn
  generalize g' = g at hl ⊢
  induction l generalizing g with
  | nil => exact .refl _
  | cons e l ih =>
    simp only [List.foldl_cons]
    obtain ⟨k, h1, h2⟩ := hl e (List.mem_cons_self ..)
    simp only [List.map_cons, List.nodup_cons] at hd
    refine (EMovesP.one (.settle g io now e.1 k e.2 h1 h2)).trans (ih hd.2 _ ?_)
    intro e' he'
    obtain ⟨k', h3, h4⟩ := hl e' (List.mem_cons_of_mem _ he')
    have hne : ¬ e.1 = e'.1 := fun h => hd.1 (h ▸ List.mem_map_of_mem (f := Prod.fst) he')
    refine ⟨k', ?_, h4⟩
    unfold Engine.settle
    split
    · simp only [Engine.close, Map.get?_erase, if_neg hne]; exact h3
    · simp only [Engine.abort, give, note, Map.get?_erase, if_neg hne]; exact h3
    · simp only [Map.get?_modify, if_neg hne]; exact h3

theorem ingest_moves (now : Nat) (fuel : Nat) (g : Engine I A C S) :
    EMovesP cfg env X T E (Tame E) g (ingest cfg env X T now fuel g) := by
  induction fuel generalizing g with
  | zero => exact .refl _
  | succ fuel ih =>
    unfold ingest
    split
    · next g1 src raw h =>
      have h1 : (g.call cfg env X T .pollIngress).1 = g1 := by rw [h]
      have h2 : (g.call cfg env X T .pollIngress).2 = .datagram (some (src, raw)) := by rw [h]
      have hm := EMoveP.call (P := Tame E) (cfg := cfg) (env := env) (X := X) (T := T) (E := E) g .pollIngress trivial
      have hin : (Coord.XOp.pollIngress, Coord.XOut.datagram (some (src, raw))) ∈ g1.hist := by
        subst h1
        show _ ∈ g.hist ++ [(Coord.XOp.pollIngress, (g.call cfg env X T .pollIngress).2)]
        rw [h2]; simp
      rw [h1] at hm
      refine (EMovesP.one hm).trans ?_
      have hf : ∀ (l : List (Message I A)) (g2 : Engine I A C S), g2.coord.ring = g1.coord.ring →
          (Coord.XOp.pollIngress, Coord.XOut.datagram (some (src, raw))) ∈ g2.hist →
          (∀ m ∈ l, m ∈ received cfg env X T g1.coord.ring raw) →
          EMovesP cfg env X T E (Tame E) g2 (l.foldl (fun g m => (g.call cfg env X T (.direct (.packet src m now))).1) g2) := by
        intro l
        induction l with
        | nil => intro g2 _ _ _; exact .refl _
        | cons m l ihl =>
          intro g2 hr hh hl
          have hmv := EMoveP.packet (P := Tame E) (cfg := cfg) (env := env) (X := X) (T := T) (E := E) g2 src m now
            ⟨raw, hh, by rw [hr]; exact hl m (List.mem_cons_self ..)⟩
          refine (EMovesP.one hmv).trans (ihl _ ?_ ?_ (fun m hm => hl m (List.mem_cons_of_mem _ hm)))
          · exact hr
          · exact List.mem_append_left _ hh
      exact (hf _ g1 rfl hin (fun m hm => hm)).trans (ih _)
    · next g1 o e1 h =>
      have h1 : (g.call cfg env X T .pollIngress).1 = g1 := by rw [h]
      have hm := EMoveP.call (P := Tame E) (cfg := cfg) (env := env) (X := X) (T := T) (E := E) g .pollIngress trivial
      rw [h1] at hm
      exact .one hm

theorem sendDatagram_moves (g : Engine I A C S) (t : Transmit I A) :
    EMovesP cfg env X T E (Quiet E) g (g.sendDatagram env X T E t) := by
  unfold sendDatagram
  split
  · exact .refl _
  · next dst b0 ht =>
    split
    · exact .refl _
    · next w hw =>
      simp only []
      have ha := EMovesP.one (EMoveP.aside (P := Quiet E) (cfg := cfg) (env := env) (X := X) (T := T) (E := E) (aside_sealed g))
      split
      · exact ha
      · next hr =>
        split
        · exact ha
        · next hb => exact ha.snoc (.datagram _ t dst b0 _ w (.inr rfl) ht hw (by simpa using hr) (by simpa using hb))

theorem drainTransmits_moves (fuel : Nat) (g : Engine I A C S) :
    EMovesP cfg env X T E (Quiet E) g (drainTransmits cfg env X T E fuel g) := by
  induction fuel generalizing g with
  | zero => exact .refl _
  | succ fuel ih =>
    unfold drainTransmits
    have hm := EMoveP.call (P := Quiet E) (cfg := cfg) (env := env) (X := X) (T := T) (E := E) g (.direct .pollTransmit) (.inr rfl)
    split
    · next g1 t h =>
      have h1 : (g.call cfg env X T (.direct .pollTransmit)).1 = g1 := by rw [h]
      rw [h1] at hm
      exact ((EMovesP.one hm).trans (sendDatagram_moves _ _)).trans (ih _)
    · next g1 o e1 h =>
      have h1 : (g.call cfg env X T (.direct .pollTransmit)).1 = g1 := by rw [h]
      rw [h1] at hm
      exact .one hm

theorem dialSeeds_moves (g : Engine I A C S) (now : Nat) : EMovesP cfg env X T E (Mild E) g (g.dialSeeds cfg env X T now) := by
  unfold dialSeeds
  split
  · exact .refl _
  · exact (EMovesP.one (.reseed g _ (fun _ _ _ => .inr (.inr ⟨_, _, rfl⟩)))).trans
      (foldl_moves _ (fun g s => .one (.call g (.startPushPull s .join now) (.inr (.inr ⟨_, _, rfl⟩)))) _ _)

/-- The states a pump goes through, up to the rebalance at its end. -/
theorem pump_moves {g : Engine I A C S} (hn : g.conns.NodupKeys) (now : Nat) (datagrams : List (A × Bytes)) :
    EMovesP cfg env X T E (Mild E) g (g.pump cfg env X T E now datagrams) := by
  unfold pump
  simp only []
  have h1 : EMovesP cfg env X T E (Tame E) g ((g.reapClosing E now).checkListener cfg env X T E now) :=
    (reapClosing_moves g now).trans (checkListener_moves _ now)
  have h2 := h1.trans (rebalance_moves (nodup_moves h1 hn) now)
  have h3 := h2.trans (foldl_moves (fun g d =>
    if E.blocked d.1 then g else (g.call cfg env X T (.gossip d.1 d.2 now)).1) (fun g d => by
      split
      · exact .refl _
      · next hb => exact .one (.call g _ (show E.blocked d.1 = false by simpa using hb))) datagrams _)
  have h4 := h3.trans (ingest_moves now (((datagrams.foldl (fun g d =>
    if E.blocked d.1 then g else (g.call cfg env X T (.gossip d.1 d.2 now)).1)
    (((g.reapClosing E now).checkListener cfg env X T E now).rebalance cfg env X T E now))).coord.ingress.length + 1) _)
  have h5 := h4.trans (pumpIn_moves _ now)
  revert h5
  generalize (ingest cfg env X T now _ _).pumpIn cfg env X T E now = g5
  intro h5
  split
  · exact h5.mono (fun _ => .inl)
  · have h6 := ((h5.mono (fun _ => .inl)).trans (dialSeeds_moves _ now)).snoc (.call _ (.timeout now) (.inl trivial))
    have h7 := h6.trans ((drainActions_moves now E.fuel _ (nodup_moves h6 hn)).mono (fun _ => .inl))
    revert h7
    have hcon := drainActions_connects (cfg := cfg) (env := env) (X := X) (T := T) (E := E) now E.fuel
      ((g5.dialSeeds cfg env X T now).call cfg env X T (.timeout now)).1
    revert hcon
    generalize drainActions cfg env X T E now E.fuel _ = g7
    intro hcon h7
    split
    · exact h7
    · next hc =>
      have hcon := hcon (by simpa using hc)
      have h8 := h7.snoc (.promote _)
      have h9 := h8.trans ((pumpOut_moves (cfg := cfg) (env := env) (X := X) (T := T) (E := E) (g7.promoteEstablished E) hcon).mono
        (fun _ h => .inl h))
      have h10 := h9.trans ((flushShutdowns_moves (nodup_moves h9 hn)).mono (fun _ => .inl))
      have h11 := h10.trans ((flushClosing_moves (nodup_moves h10 hn) now).mono (fun _ => .inl))
      have h12 := h11.trans ((rebalance_moves (nodup_moves h11 hn) now).mono (fun _ => .inl))
      exact h12.trans ((drainTransmits_moves _ _).mono (fun _ h => h.elim .inl (fun h => .inr (.inl h))))

/-- The calls of a call: it changes the keys only if it is asked to. -/
def Sets (E : EEnv S C A) (op : EOp I A C S) (op' : XOp I A) : Prop :=
  Plain E op' ∧ (∀ r, op' = .setEncryption r → op = .setEncryption r) ∧
    ∀ src m now, op' = .direct (.packet src m now) →
      ∃ id, op = .injectAlive id src now ∧ m = .alive ⟨1, [], ⟨id, src⟩, .v1, .v1⟩

theorem step_sets {g : Engine I A C S} (hn : g.conns.NodupKeys) (op : EOp I A C S) :
    EMovesP cfg env X T E (Sets E op) g (g.step cfg env X T E op).1 := by
  unfold step
  split
  · exact .refl _
  · cases op with
    | world io => exact .one (.aside (aside_io g io))
    | pump now datagrams => exact (pump_moves hn now datagrams).mono (fun op h => ⟨mild_plain h,
        fun r e => (by subst e; rcases h with h | h | ⟨_, _, h⟩ <;> cases h), fun _ _ _ e => (by subst e; rcases h with h | h | ⟨_, _, h⟩ <;> cases h)⟩)
    | join seeds =>
      simp only [act]
      split
      · exact .refl _
      · exact .one (.reseed g _ (fun _ _ _ => ⟨trivial, fun _ h => (by cases h), fun _ _ _ h => (by cases h)⟩))
    | leave now => exact (EMovesP.one (.reseed g [] (fun _ _ _ => ⟨trivial, fun _ h => (by cases h), fun _ _ _ h => (by cases h)⟩))).snoc (.call _ _ ⟨trivial, fun _ h => (by cases h), fun _ _ _ h => (by cases h)⟩)
    | sendReliable dst payload now => exact .one (.call g _ ⟨trivial, fun _ h => (by cases h), fun _ _ _ h => (by cases h)⟩)
    | send dst payload =>
      simp only [act]
      split
      · exact .refl _
      · exact .one (.call g _ ⟨trivial, fun _ h => (by cases h), fun _ _ _ h => (by cases h)⟩)
    | sendMany dst payloads =>
      simp only [act]
      split
      · exact .refl _
      · exact .one (.call g _ ⟨trivial, fun _ h => (by cases h), fun _ _ _ h => (by cases h)⟩)
    | ping node now => exact .one (.call g _ ⟨trivial, fun _ h => (by cases h), fun _ _ _ h => (by cases h)⟩)
    | start now => exact .one (.call g _ ⟨trivial, fun _ h => (by cases h), fun _ _ _ h => (by cases h)⟩)
    | injectAlive id peer now =>
      simp only [act]
      split
      · exact .refl _
      · next hr => exact .one (.call g (.direct (.packet peer (.alive ⟨1, [], ⟨id, peer⟩, .v1, .v1⟩) now))
          ⟨⟨id, rfl, by simpa using hr⟩, fun _ h => (by cases h), fun _ _ _ h => (by cases h; exact ⟨id, rfl, rfl⟩)⟩)
    | queueUser rank data => exact .one (.call g _ ⟨trivial, fun _ h => (by cases h), fun _ _ _ h => (by cases h)⟩)
    | updateMeta m => exact .one (.call g _ ⟨trivial, fun _ h => (by cases h), fun _ _ _ h => (by cases h)⟩)
    | setLocalState b => exact .one (.call g _ ⟨trivial, fun _ h => (by cases h), fun _ _ _ h => (by cases h)⟩)
    | setAckPayload b => exact .one (.call g _ ⟨trivial, fun _ h => (by cases h), fun _ _ _ h => (by cases h)⟩)
    | setCompression cmp =>
      simp only [act]
      split
      · exact .refl _
      · exact .one (.call g _ ⟨trivial, fun _ h => (by cases h), fun _ _ _ h => (by cases h)⟩)
    | setEncryption ring =>
      simp only [act]
      split
      · exact .refl _
      · split
        · exact .refl _
        · exact .one (.call g _ ⟨trivial, fun _ h => (by cases h; rfl), fun _ _ _ h => (by cases h)⟩)
    | pollEvent => exact .one (.event g)

theorem step_moves {g : Engine I A C S} (hn : g.conns.NodupKeys) (op : EOp I A C S) :
    EMoves cfg env X T E g (g.step cfg env X T E op).1 := (step_sets hn op).mono (fun _ h => h.1)

/-- The engine as the driver makes it: its first two calls are moves. -/
def base (ep : Ep I A) (cmp0 : CmpOptions) (io : S) (handles : List C) (listener : Option C) : Engine I A C S :=
  { coord := Coord.new ep cmp0, io, pool := handles, listener }

theorem new_moves (ep : Ep I A) (cmp0 cmp : CmpOptions) (ring : Option Keyring) (io : S) (handles : List C)
    (listener : Option C) :
    EMoves cfg env X T E (base ep cmp0 io handles listener)
      (Engine.new cfg env X T ep cmp0 cmp ring io handles listener) :=
  (EMovesP.one (.call _ (.setCompression cmp) trivial)).snoc (.call _ (.setEncryption ring) trivial)

/-- Every history of calls is a sequence of moves. -/
theorem run_moves (ep : Ep I A) (cmp0 cmp : CmpOptions) (ring : Option Keyring) (io : S)
    (handles : List C) (listener : Option C) (ops : List (EOp I A C S)) :
    EMoves cfg env X T E (base ep cmp0 io handles listener)
      ((Engine.new cfg env X T ep cmp0 cmp ring io handles listener).run cfg env X T E ops) := by
  have hnew := new_moves (cfg := cfg) (env := env) (X := X) (T := T) (E := E) ep cmp0 cmp ring io handles listener
  revert hnew
  generalize Engine.new cfg env X T ep cmp0 cmp ring io handles listener = g
  intro hnew
  induction ops generalizing g with
  | nil => exact hnew
  | cons op ops ih => exact ih _ (hnew.trans (step_moves (nodup_moves hnew Map.nodup_nil) op))

/-- The calls of a history: keys are changed, and claims made, only as asked. -/
def Asked (E : EEnv S C A) (ring : Option Keyring) (ops : List (EOp I A C S)) (op' : XOp I A) : Prop :=
  Plain E op' ∧ (∀ r, op' = .setEncryption r → r = ring ∨ .setEncryption r ∈ ops) ∧
    ∀ src m now, op' = .direct (.packet src m now) →
      ∃ id, .injectAlive id src now ∈ ops ∧ m = .alive ⟨1, [], ⟨id, src⟩, .v1, .v1⟩

theorem run_asked (ep : Ep I A) (cmp0 cmp : CmpOptions) (ring : Option Keyring) (io : S)
    (handles : List C) (listener : Option C) (ops : List (EOp I A C S)) :
    EMovesP cfg env X T E (Asked E ring ops) (base ep cmp0 io handles listener)
      ((Engine.new cfg env X T ep cmp0 cmp ring io handles listener).run cfg env X T E ops) := by
  have hnew : EMovesP cfg env X T E (Asked E ring ops) (base ep cmp0 io handles listener)
      (Engine.new cfg env X T ep cmp0 cmp ring io handles listener) :=
    (EMovesP.one (.call _ (.setCompression cmp) ⟨trivial, fun _ h => (by cases h), fun _ _ _ h => (by cases h)⟩)).snoc
      (.call _ (.setEncryption ring) ⟨trivial, fun _ h => (by cases h; exact .inl rfl), fun _ _ _ h => (by cases h)⟩)
  suffices H : ∀ (l : List (EOp I A C S)) (g : Engine I A C S), (∀ op ∈ l, op ∈ ops) →
      EMovesP cfg env X T E (Asked E ring ops) (base ep cmp0 io handles listener) g →
      EMovesP cfg env X T E (Asked E ring ops) (base ep cmp0 io handles listener) (g.run cfg env X T E l) from
    H ops _ (fun _ h => h) hnew
  intro l
  induction l with
  | nil => intro g _ h; exact h
  | cons op l ih =>
    intro g hl h
    have hop : op ∈ ops := hl op (List.mem_cons_self ..)
    refine ih _ (fun o ho => hl o (List.mem_cons_of_mem _ ho))
      (h.trans ((step_sets (nodup_moves h Map.nodup_nil) op).mono (fun op' h => ⟨h.1, fun r e => ?_, fun src m now e => ?_⟩)))
    · exact .inr (h.2.1 r e ▸ hop)
    · obtain ⟨id, h1, h2⟩ := h.2.2 src m now e
      exact ⟨id, h1 ▸ hop, h2⟩

end
end Verif.Engine
