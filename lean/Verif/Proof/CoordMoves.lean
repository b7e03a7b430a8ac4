import Verif.Proof.CoordBut
import Verif.Spec.Timing
/-
Every call of the coordinator is one first effect followed by a sequence of small moves. Invariants of the
coordinator are proved move by move.
-/
namespace Verif.Map
variable {K V : Type} [DecidableEq K]

theorem erase_insert (m : Map K V) (k : K) (v : V) : erase (insert m k v) k = erase m k := by
  induction m with
  | nil => simp [insert, erase]
  | cons e m ih =>
    obtain ⟨k', v'⟩ := e
    by_cases h : k' = k
    · subst h; simp [insert, erase]
    · simp only [erase] at ih
      simp only [ne_eq, decide_not] at ih
      simp [insert, erase, h, ih]

theorem insert_insert (m : Map K V) (k : K) (v v' : V) :
    insert (insert m k v) k v' = insert m k v' := by
  induction m with
  | nil => simp [insert]
  | cons e m ih =>
    obtain ⟨k', w⟩ := e
    by_cases h : k' = k
    · subst h; simp [insert]
    · simp [insert, h, ih]

theorem insert_of_get? {m : Map K V} {k : K} {v : V} (h : get? m k = some v) : insert m k v = m := by
  induction m with
  | nil => simp at h
  | cons e m ih =>
    obtain ⟨k', w⟩ := e
    by_cases hk : k' = k
    · subst hk
      simp only [get?_cons, if_true, Option.some.injEq] at h
      subst h; simp [insert]
    · rw [get?_cons, if_neg hk] at h
      simp [insert, hk, ih h]

theorem get?_insert_self (m : Map K V) (k : K) (v : V) : get? (insert m k v) k = some v := by
  simp [get?_insert]

theorem modify_eq_insert {m : Map K V} (hn : NodupKeys m) {k : K} {v : V} (f : V → V)
    (h : get? m k = some v) : modify m k f = insert m k (f v) := by
  induction m with
  | nil => simp at h
  | cons e m ih =>
    obtain ⟨k', w⟩ := e
    rw [nodup_cons] at hn
    by_cases hk : k' = k
    · subst hk
      simp only [get?_cons, if_true, Option.some.injEq] at h
      subst h
      have : modify m k' f = m := by
        have h2 : ∀ e ∈ m, e.1 ≠ k' := fun e he hc => hn.1 e.2 (by rw [← hc]; exact he)
        clear ih hn
        induction m with
        | nil => rfl
        | cons a m ih =>
          simp only [modify, List.map_cons] at ih ⊢
          rw [ih (fun e he => h2 e (List.mem_cons_of_mem _ he)), if_neg (h2 a List.mem_cons_self)]
      simp only [modify, List.map_cons, if_true] at this ⊢
      rw [this]; simp [insert]
    · rw [get?_cons, if_neg hk] at h
      have := ih hn.2 h
      simp only [modify, List.map_cons, if_neg hk] at this ⊢
      rw [this]; simp [insert, hk]

theorem modify_of_none {m : Map K V} {k : K} (f : V → V) (h : get? m k = none) : modify m k f = m := by
  rw [get?_eq_none_iff] at h
  have h2 : ∀ e ∈ m, e.1 ≠ k := fun e he hc => h (by rw [← hc]; exact mem_keys.2 ⟨e.2, he⟩)
  clear h
  induction m with
  | nil => rfl
  | cons a m ih =>
    simp only [modify, List.map_cons] at ih ⊢
    rw [ih (fun e he => h2 e (List.mem_cons_of_mem _ he)), if_neg (h2 a List.mem_cons_self)]

end Verif.Map

namespace Verif.Coord
variable {I A : Type} [DecidableEq I] [DecidableEq A] {cfg : Cfg I A} {env : Env I A} {X : XCfg} {T : TEnv} {N : Nat → Bridge I A → Prop} {L : Prop}

/-- Endpoint calls that bring no payload of an exchange, open no stream and report no result. -/
def Plain : Ep.Op I A → Prop
  | .streamEvent (.payload _) _ => False
  | .external _ => False
  | .acceptStream .. => False
  | .dialSucceeded .. => False
  | _ => True

/-- The two states differ in their bookkeeping only. -/
structure Same (c c' : Coord I A) : Prop where
  ep : c'.ep = c.ep
  calls : c'.calls = c.calls
  cmp : c'.cmp = c.cmp
  ring : c'.ring = c.ring
  conns : c'.conns = c.conns
  nextX : c'.nextX = c.nextX
  metas : c'.metas = c.metas
  out : c'.out = c.out
  connects : c'.connects = c.connects
  teardowns : c'.teardowns = c.teardowns
  kinds : ∀ sid kind, c'.kinds.get? sid = some kind → c.kinds.get? sid = some kind
  ingress : c'.ingress.Sublist c.ingress

theorem Same.refl (c : Coord I A) : Same c c := ⟨rfl, rfl, rfl, rfl, rfl, rfl, rfl, rfl, rfl, rfl, fun _ _ h => h, List.Sublist.refl _⟩

/-- What the coordinator does to a bridge besides feeding it. -/
inductive BStep (env : Env I A) (T : TEnv) : Bridge I A → Bridge I A → Prop
  | replay (b : Bridge I A) (now : Nat) : BStep env T b (b.replay env.CI env.CA T now)
  | pumpOut (b : Bridge I A) (now : Nat) : BStep env T b (b.pumpOut T now)

/-- The bridge of an exchange is replaced. -/
def put (c : Coord I A) (x : Nat) (b : Bridge I A) : Coord I A :=
  { c with conns := c.conns.insert x b }

/-- One queued event of exchange `x` is committed. -/
def commit (cfg : Cfg I A) (env : Env I A) (T : TEnv) (c : Coord I A) (x : Nat) (b : Bridge I A)
    (s : Stream I A) (ev : PayloadEvent I A) (rest : List (PayloadEvent I A)) (now : Nat) : Coord I A :=
  { c with
    ep := (Bridge.commitOne cfg env T c.cmp now c.ep b s ev rest).1
    calls := c.calls ++ [(some x, .streamEvent (.payload ev) now)]
    conns := c.conns.insert x (Bridge.commitOne cfg env T c.cmp now c.ep b s ev rest).2 }

/-- The endpoint call that mints the stream of an exchange. -/
def mintOp (mint : Mint A) (now : Nat) : Ep.Op I A :=
  match mint with
  | .outbound sid => .dialSucceeded sid now
  | .inbound peer => .acceptStream peer now

/-- The pending mint of an exchange is taken and the endpoint is asked for its stream. -/
def takeMint (cfg : Cfg I A) (env : Env I A) (c : Coord I A) (x : Nat) (m : XMeta A) (mint : Mint A)
    (now : Nat) : Coord I A × Ep.Out I A :=
  { c with metas := c.metas.insert x { m with mint := none } }.callEp cfg env (some x) (mintOp mint now)

/-- The endpoint calls that start an exchange, with the stream id they give out and the kind of the exchange. -/
inductive Starts (cfg : Cfg I A) (env : Env I A) (e : Ep I A) : Ep.Op I A → Nat → ExKind → Prop
  | pushPull (peer : A) (kind : PushPullKind) (now : Nat) :
      Starts cfg env e (.startPushPull peer kind now) (e.startPushPull cfg env peer kind now).2 .pushPull
  | reliablePing (pid : I) (peer : A) (seq deadline : Nat) :
      Starts cfg env e (.startReliablePing pid peer seq deadline)
        (e.startReliablePing cfg env pid peer seq deadline).2 .reliablePing
  | userMessage (peer : A) (payload : Bytes) (now sid : Nat) :
      (e.startUserMessage cfg env peer payload now).2 = .ok sid →
      Starts cfg env e (.startUserMessage peer payload now) sid .userMessage

theorem Starts.plain {e : Ep I A} {op : Ep.Op I A} {sid : Nat} {kind : ExKind} (h : Starts cfg env e op sid kind) :
    Plain op := by
  cases h <;> trivial

/-- What the coordinator does within a call; `N` holds of the instant the call is made at and of the
bridges whose events it commits or whose stream it opens, and `L` says that it is `leave`. -/
inductive Move (cfg : Cfg I A) (env : Env I A) (X : XCfg) (T : TEnv) (N : Nat → Bridge I A → Prop) (L : Prop) : Coord I A → Coord I A → Prop
  | book {c c' : Coord I A} : Same c c' → Move cfg env X T N L c c'
  | call {c : Coord I A} (x : Option Nat) (op : Ep.Op I A) (hp : Plain op)
      (hl : ∀ now f, op = .leave now f → L := by intro _ _ h; cases h) :
      Move cfg env X T N L c (c.callEp cfg env x op).1
  | start {c : Coord I A} (op : Ep.Op I A) (sid : Nat) (kind : ExKind) : Starts cfg env c.ep op sid kind →
      Move cfg env X T N L c { (c.callEp cfg env none op).1 with kinds := c.kinds.insert sid kind }
  | bridge {c : Coord I A} {x : Nat} {b b' : Bridge I A} : c.conns.get? x = some b → BStep env T b b' →
      Move cfg env X T N L c (c.put x b')
  | commit {c : Coord I A} {x : Nat} {b : Bridge I A} {s : Stream I A} {ev : PayloadEvent I A}
      {rest : List (PayloadEvent I A)} (now : Nat) : c.conns.get? x = some b → b.stream = some s →
      s.endpointEvents = ev :: rest → (b.phase = .recvClosed ∨ b.isTerminal = true) →
      (b.isTerminal = true ∨ b.Swept now) → N now b →
      Move cfg env X T N L c (c.commit cfg env T x b s ev rest now)
  | shutdown {c : Coord I A} {x : Nat} {b : Bridge I A} : c.conns.get? x = some b →
      b.isTerminal = false → Move cfg env X T N L c (c.maybeShutdown x b)
  | collect {c : Coord I A} {x : Nat} {b : Bridge I A} : c.conns.get? x = some b →
      Move cfg env X T N L c ((c.collect x b).1.put x (c.collect x b).2)
  | reap {c : Coord I A} {x : Nat} {b : Bridge I A} : c.conns.get? x = some b → b.isTerminal = true → b.evs = [] →
      Move cfg env X T N L c (c.reap cfg env x b)
  | dial {c : Coord I A} (now : Nat) (d : Nat × A × Nat) : c.ep.isRunning = true →
      Move cfg env X T N L c (c.dialOne cfg env X now d)
  | mintOk {c : Coord I A} {x : Nat} {b : Bridge I A} {m : XMeta A} {mint : Mint A} {s : Stream I A}
      (now : Nat) : c.conns.get? x = some b → b.isTerminal = false → b.isHandshaking = false →
      c.metas.get? x = some m → m.mint = some mint →
      (c.takeMint cfg env x m mint now).2 = .stream (some s) → N now b →
      Move cfg env X T N L c ((c.takeMint cfg env x m mint now).1.promoteX x s)
  | mintOut {c : Coord I A} {x : Nat} {b : Bridge I A} {m : XMeta A} {sid : Nat}
      (now : Nat) : c.conns.get? x = some b → b.isTerminal = false → b.isHandshaking = false →
      c.metas.get? x = some m → m.mint = some (.outbound sid) →
      Move cfg env X T N L c ((c.takeMint cfg env x m (.outbound sid) now).1.retireDial cfg env x)
  | mintIn {c : Coord I A} {x : Nat} {b : Bridge I A} {m : XMeta A} {peer : A}
      (now : Nat) : c.conns.get? x = some b → b.isTerminal = false → b.isHandshaking = false →
      c.metas.get? x = some m → m.mint = some (.inbound peer) →
      Move cfg env X T N L c ((c.takeMint cfg env x m (.inbound peer) now).1.cancel x)
  | cancel {c : Coord I A} {x : Nat} : L → c.connects = [] → c.hasBytes x = true →
      Move cfg env X T N L c (c.cancel x)

/-- A sequence of moves. -/
inductive Moves (cfg : Cfg I A) (env : Env I A) (X : XCfg) (T : TEnv) (N : Nat → Bridge I A → Prop) (L : Prop) : Coord I A → Coord I A → Prop
  | refl (c : Coord I A) : Moves cfg env X T N L c c
  | snoc {a b c : Coord I A} : Moves cfg env X T N L a b → Move cfg env X T N L b c → Moves cfg env X T N L a c

theorem Moves.one {a b : Coord I A} (h : Move cfg env X T N L a b) : Moves cfg env X T N L a b :=
  .snoc (.refl a) h

theorem Moves.trans {a b c : Coord I A} (h : Moves cfg env X T N L a b) (h2 : Moves cfg env X T N L b c) :
    Moves cfg env X T N L a c := by
  induction h2 with
  | refl => exact h
  | snoc _ hm ih => exact ih.snoc hm

theorem Moves.after {a b c : Coord I A} (h : Moves cfg env X T N L b c) (hs : Same a b) :
    Moves cfg env X T N L a c := (Moves.one (.book hs)).trans h

theorem Moves.inv {P : Coord I A → Prop} (hP : ∀ {c c'}, Move cfg env X T N L c c' → P c → P c')
    {a b : Coord I A} (h : Moves cfg env X T N L a b) (ha : P a) : P b := by
  induction h with
  | refl => exact ha
  | snoc _ hm ih => exact hP hm ih

theorem Moves.fold {α : Type} (f : Coord I A → α → Coord I A)
    (hf : ∀ c a, Moves cfg env X T N L c (f c a)) (l : List α) (c : Coord I A) :
    Moves cfg env X T N L c (l.foldl f c) := by
  induction l generalizing c with
  | nil => exact .refl c
  | cons a l ih => exact (hf c a).trans (ih _)

/-! ### The functions of the coordinator as moves -/

/-- What the calls at `now` may rely on for their commits and mints. -/
structure Allows (N : Nat → Bridge I A → Prop) (now : Nat) : Prop where
  live : ∀ b, b.stream ≠ none → N now b
  swept : ∀ b, b.Swept now → N now b
  fresh : ∀ b, now < b.deadline → N now b

/-- The stream of the bridge may be opened at `now` as soon as its connection is set up. -/
def Due (N : Nat → Bridge I A → Prop) (now : Nat) (b : Bridge I A) : Prop :=
  b.isTerminal = false → b.isHandshaking = false → N now b

theorem Allows.promote (hN : Allows N now) (b : Bridge I A) (s : Stream I A) : Due N now (b.promote s) :=
  fun _ _ => hN.live _ (by simp [Bridge.promote])

theorem Allows.pumped (hN : Allows N now) {c : Coord I A} (h : But (Due N now) c.dirty c) :
    But (Due N now) [] (c.pump cfg env T now) := by
  have : But (Due N now) [] (c.pump cfg env T now) ∧ (c.pump cfg env T now).dirty = [] := by
    unfold Coord.pump
    exact But.pumpFold' (fun b h1 _ h3 => fun _ _ => hN.swept b h3) c.dirty { c with dirty := [] } h
  exact this.1

theorem put_put (c : Coord I A) (x : Nat) (b b' : Bridge I A) : (c.put x b).put x b' = c.put x b' := by
  simp [put, Map.insert_insert]

theorem put_get (c : Coord I A) (x : Nat) (b : Bridge I A) : (c.put x b).conns.get? x = some b := by
  simp [put, Map.get?_insert]

theorem put_self {c : Coord I A} {x : Nat} {b : Bridge I A} (h : c.conns.get? x = some b) :
    c.put x b = c := by
  simp only [put, Map.insert_of_get? h]

theorem drain_moves {now : Nat} (hN : Allows N now) (fuel : Nat) : ∀ (c : Coord I A) (x : Nat) (b : Bridge I A),
    c.conns.get? x = some b → b.Late → (b.isTerminal = true ∨ b.Swept now) →
    Moves cfg env X T N L c
      ((c.absorb x (Bridge.drainEvents cfg env T c.cmp now fuel c.ep b []).1
        (Bridge.drainEvents cfg env T c.cmp now fuel c.ep b []).2.2).put x
          (Bridge.drainEvents cfg env T c.cmp now fuel c.ep b []).2.1) := by
  have hz : ∀ (c : Coord I A) (x : Nat) (b : Bridge I A), c.conns.get? x = some b →
      Moves cfg env X T N L c ((c.absorb x c.ep []).put x b) := by
    intro c x b h
    have : c.absorb x c.ep [] = c := by simp [absorb]
    rw [this, put_self h]
    exact .refl c
  induction fuel with
  | zero => intro c x b h _ _; exact hz c x b h
  | succ fuel ih =>
    intro c x b h hl hsw
    simp only [Bridge.drainEvents]
    cases hs : b.stream with
    | none => exact hz c x b h
    | some s =>
      simp only []
      cases he : s.endpointEvents with
      | nil => exact hz c x b h
      | cons ev rest =>
        simp only []
        have h1 : Move cfg env X T N L c (c.commit cfg env T x b s ev rest now) :=
          .commit now h hs he hl hsw (hN.live b (by rw [hs]; simp))
        have h2 := ih (c.commit cfg env T x b s ev rest now) x
          (Bridge.commitOne cfg env T c.cmp now c.ep b s ev rest).2
          (by simp [commit, Map.get?_insert]) (Bridge.commitOne_late _ _ _ _ _ _ hl)
          (Bridge.commitOne_swept hs (Bridge.commitOne_cases _ _ _ _ _ _ _) hsw)
        have h3 := (Moves.one h1).trans h2
        rw [Bridge.drainEvents_log]
        simpa [commit, absorb, put, Map.insert_insert] using h3

theorem reap_conns (c : Coord I A) (x : Nat) (b b' : Bridge I A) :
    (c.put x b').reap cfg env x b = c.reap cfg env x b := by
  have h1 : ∀ m (k : Map Nat (XMeta A)) (r : Bool) (o : List (Nat × A × Bytes)),
      complete cfg env { c with conns := (c.conns.insert x b').erase x, metas := k, out := o } x m r =
      complete cfg env { c with conns := c.conns.erase x, metas := k, out := o } x m r := by
    intro m k r o
    rw [Map.erase_insert]
  unfold reap
  by_cases hf : b.isFailed = true
  · simp only [hf, if_true, put, purge, h1]
  · simp only [hf, put, collect]
    cases hm : c.metas.get? x with
    | none => simp only [Bool.false_eq_true, if_false, hm, h1]
    | some m =>
      by_cases ht : b.transmit.2 = []
      · simp only [Bool.false_eq_true, if_false, ht, if_true, hm, h1]
      · simp only [Bool.false_eq_true, if_false, ht, hm, h1]

theorem drainReap_moves (c : Coord I A) (x : Nat) (b : Bridge I A) {now : Nat} (hN : Allows N now)
    (hb : b.isTerminal = true) :
    Moves cfg env X T N L (c.put x b) (c.drainReap cfg env T x b now) := by
  simp only [drainReap, Bridge.drainThenReap]
  cases hs : b.stream with
  | none =>
    simp only []
    have h1 : (c.absorb x c.ep []).reap cfg env x b = (c.put x b).reap cfg env x b := by
      have : c.absorb x c.ep [] = c := by simp [absorb]
      rw [this, reap_conns]
    rw [h1]
    exact .one (.reap (put_get c x b) hb (by simp [Bridge.evs, hs]))
  | some s =>
    simp only []
    have h1 := drain_moves (cfg := cfg) (env := env) (X := X) (T := T) (N := N) (L := L) hN b.queued (c.put x b) x b
      (put_get c x b) (.inr hb) (.inl hb)
    have ht := Bridge.drainEvents_terminal (cfg := cfg) (env := env) (T := T) c.cmp now b.queued c.ep b [] hb
    have hq := Bridge.drainEvents_done (cfg := cfg) (env := env) (T := T) c.cmp now b.queued c.ep b [] (Nat.le_refl _)
    rw [show (c.put x b).cmp = c.cmp from rfl, show (c.put x b).ep = c.ep from rfl] at h1
    generalize Bridge.drainEvents cfg env T c.cmp now b.queued c.ep b [] = r at h1 ht hq
    have hn : ∀ notice : EndpointEvent I A, Plain (Ep.Op.streamEvent notice now : Ep.Op I A) →
        Moves cfg env X T N L (c.put x b)
        ((c.absorb x (r.1.handleStreamEvent cfg env notice now).1
          (r.2.2 ++ [Ep.Op.streamEvent notice now])).reap cfg env x r.2.1) := by
      intro notice hp
      have h2 := h1.snoc (.call (some x) _ hp)
      have h3 := h2.snoc (.reap (x := x) (b := r.2.1) (by simp [callEp, put, Map.get?_insert]) ht
        (by rw [Bridge.queued_evs] at hq; exact List.length_eq_zero_iff.1 hq))
      have e : ((((c.put x b).absorb x r.1 r.2.2).put x r.2.1).callEp cfg env (some x)
          (Ep.Op.streamEvent notice now)).1 =
          (c.absorb x (r.1.handleStreamEvent cfg env notice now).1
            (r.2.2 ++ [Ep.Op.streamEvent notice now])).put x r.2.1 := by
        simp [callEp, put, absorb, Map.insert_insert, Ep.step]
      rw [e, reap_conns] at h3
      exact h3
    exact hn _ (by split <;> trivial)

theorem pumpOne_moves {now : Nat} (hN : Allows N now) (c : Coord I A) (x : Nat) :
    Moves cfg env X T N L c (c.pumpOne cfg env T now x) := by
  unfold pumpOne
  cases hx : c.conns.get? x with
  | none => exact .refl c
  | some b =>
    simp only []
    have h1 : Moves cfg env X T N L c (c.put x ((b.replay env.CI env.CA T now).pumpOut T now)) := by
      have a1 : Move cfg env X T N L c (c.put x (b.replay env.CI env.CA T now)) := .bridge hx (.replay b now)
      have a2 := (Moves.one a1).snoc (.bridge (put_get _ _ _) (.pumpOut (b.replay env.CI env.CA T now) now))
      rwa [put_put] at a2
    have hsw : ((b.replay env.CI env.CA T now).pumpOut T now).isTerminal = false →
        ((b.replay env.CI env.CA T now).pumpOut T now).Swept now := fun h => Bridge.pumpOut_swept (Bridge.pumpOut_cases _ _) h
    generalize (b.replay env.CI env.CA T now).pumpOut T now = b1 at h1 hsw
    by_cases ht : b1.isTerminal = true
    · rw [if_pos ht]; exact h1.trans (drainReap_moves c x b1 hN ht)
    · rw [if_neg ht]
      have h2 := h1.snoc (c := { c with panicked := c.panicked || (b1.phase == Link.recvClosed && b1.stream.isNone) }.put x b1)
        (.book ⟨rfl, rfl, rfl, rfl, rfl, rfl, rfl, rfl, rfl, rfl, fun _ _ h => h, List.Sublist.refl _⟩)
      have hcmp : ({ c with panicked := c.panicked || (b1.phase == Link.recvClosed && b1.stream.isNone) } : Coord I A).cmp = c.cmp := rfl
      have hep : ({ c with panicked := c.panicked || (b1.phase == Link.recvClosed && b1.stream.isNone) } : Coord I A).ep = c.ep := rfl
      generalize ({ c with panicked := c.panicked || (b1.phase == Link.recvClosed && b1.stream.isNone) } : Coord I A) = c1 at h2 hcmp hep ⊢
      rw [← hcmp, ← hep]
      have h3 : Moves cfg env X T N L (c1.put x b1)
          ((c1.absorb x (b1.drainPayloadOnly cfg env T c1.cmp c1.ep now).1
            (b1.drainPayloadOnly cfg env T c1.cmp c1.ep now).2.2).put x
            (b1.drainPayloadOnly cfg env T c1.cmp c1.ep now).2.1) := by
        unfold Bridge.drainPayloadOnly
        by_cases hp : b1.phase = .recvClosed
        · rw [if_pos hp]
          have := drain_moves (cfg := cfg) (env := env) (X := X) (T := T) (N := N) (L := L) hN b1.queued (c1.put x b1) x b1
            (put_get c1 x b1) (.inl hp) (.inr (hsw (by simpa using ht)))
          simpa [put, absorb, Map.insert_insert] using this
        · rw [if_neg hp]
          have : c1.absorb x c1.ep [] = c1 := by simp [absorb]
          rw [this]; exact .refl _
      generalize b1.drainPayloadOnly cfg env T c1.cmp c1.ep now = r at h3
      have h4 := h2.trans h3
      generalize c1.absorb x r.1 r.2.2 = c2 at h4
      by_cases ht : r.2.1.isTerminal = true
      · rw [if_pos ht]; exact h4.trans (drainReap_moves c2 x r.2.1 hN ht)
      · rw [if_neg ht]
        have h5 := h4.snoc (.shutdown (put_get c2 x r.2.1) (by simpa using ht))
        refine h5.snoc (.book ?_)
        have : (c2.put x r.2.1).maybeShutdown x r.2.1 = (c2.maybeShutdown x r.2.1).put x r.2.1 := by
          unfold maybeShutdown
          rw [show (c2.put x r.2.1).metas = c2.metas from rfl]
          by_cases hf : r.2.1.finSent = true
          · cases hm : c2.metas.get? x with
            | none => simp [hf]
            | some m => by_cases he : m.finEmitted = true <;> simp [hf, he, put, teardown]
          · simp [hf]
        rw [this]
        exact ⟨rfl, rfl, rfl, rfl, rfl, rfl, rfl, rfl, rfl, rfl, fun _ _ h => h, List.Sublist.refl _⟩

theorem pump_moves {now : Nat} (hN : Allows N now) (c : Coord I A) : Moves cfg env X T N L c (c.pump cfg env T now) := by
  unfold pump
  exact Moves.trans (b := { c with dirty := [] }) (.one (.book ⟨rfl, rfl, rfl, rfl, rfl, rfl, rfl, rfl, rfl, rfl, fun _ _ h => h, List.Sublist.refl _⟩))
    (Moves.fold _ (fun c x => pumpOne_moves hN c x) _ _)

theorem collectTransmits_moves (c : Coord I A) : Moves cfg env X T N L c c.collectTransmits := by
  unfold collectTransmits
  refine Moves.trans (b := { c with pumped := [] }) (.one (.book ⟨rfl, rfl, rfl, rfl, rfl, rfl, rfl, rfl, rfl, rfl, fun _ _ h => h, List.Sublist.refl _⟩))
    (Moves.fold _ (fun c x => ?_) _ _)
  cases hx : c.conns.get? x with
  | none => exact .refl c
  | some b => exact .one (.collect hx)

theorem mintOne_moves {now : Nat} (c : Coord I A) (x : Nat) (hd : But (Due N now) [] c) :
    Moves cfg env X T N L c (c.mintOne cfg env now x) := by
  unfold mintOne
  cases hx : c.conns.get? x with
  | none => exact .refl c
  | some b =>
    simp only []
    by_cases ht : b.isTerminal = true
    · rw [if_pos ht]; exact .refl c
    · rw [if_neg ht]
      have ht' : b.isTerminal = false := by simpa using ht
      by_cases hh : b.isHandshaking = true
      · rw [if_pos hh]; exact .one (.book ⟨rfl, rfl, rfl, rfl, rfl, rfl, rfl, rfl, rfl, rfl, fun _ _ h => h, List.Sublist.refl _⟩)
      · rw [if_neg hh]
        have hh' : b.isHandshaking = false := by simpa using hh
        have hN := hd x b hx (by simp) ht' hh'
        cases hm : c.metas.get? x with
        | none => exact .one (.book ⟨rfl, rfl, rfl, rfl, rfl, rfl, rfl, rfl, rfl, rfl, fun _ _ h => h, List.Sublist.refl _⟩)
        | some m =>
          simp only []
          cases hmi : m.mint with
          | none => exact .one (.book ⟨rfl, rfl, rfl, rfl, rfl, rfl, rfl, rfl, rfl, rfl, fun _ _ h => h, List.Sublist.refl _⟩)
          | some mint =>
            have h0 : Move cfg env X T N L c { c with dirty := idInsert x c.dirty } :=
              .book ⟨rfl, rfl, rfl, rfl, rfl, rfl, rfl, rfl, rfl, rfl, fun _ _ h => h, List.Sublist.refl _⟩
            have e0 : ({ c with metas := c.metas.insert x { m with mint := none },
                                dirty := idInsert x c.dirty } : Coord I A).callEp cfg env (some x) (mintOp mint now) =
                ({ c with dirty := idInsert x c.dirty } : Coord I A).takeMint cfg env x m mint now := rfl
            have hx1 : ({ c with dirty := idInsert x c.dirty } : Coord I A).conns.get? x = some b := hx
            have hm1 : ({ c with dirty := idInsert x c.dirty } : Coord I A).metas.get? x = some m := hm
            generalize ({ c with dirty := idInsert x c.dirty } : Coord I A) = c1 at h0 e0 hx1 hm1
            cases mint with
            | outbound sid =>
              simp only [mintOp] at e0
              simp only [e0]
              have hi := fun s => Move.mintOk (cfg := cfg) (env := env) (X := X) (T := T) (N := N) (L := L) (s := s) now hx1 ht' hh' hm1 hmi
              have ho : Move cfg env X T N L c1 _ := .mintOut now hx1 ht' hh' hm1 hmi
              revert hi ho
              generalize takeMint cfg env c1 x m (.outbound sid) now = r
              intro hi ho
              obtain ⟨c2, o⟩ := r
              split
              · next s h => cases h; exact (Moves.one h0).snoc (hi s rfl hN)
              · next h => cases h; exact (Moves.one h0).snoc ho
            | inbound peer =>
              simp only [mintOp] at e0
              simp only [e0]
              have hi := fun s => Move.mintOk (cfg := cfg) (env := env) (X := X) (T := T) (N := N) (L := L) (s := s) now hx1 ht' hh' hm1 hmi
              have ho : Move cfg env X T N L c1 _ := .mintIn now hx1 ht' hh' hm1 hmi
              revert hi ho
              generalize takeMint cfg env c1 x m (.inbound peer) now = r
              intro hi ho
              obtain ⟨c2, o⟩ := r
              split
              · next s h => cases h; exact (Moves.one h0).snoc (hi s rfl hN)
              · next h => cases h; exact (Moves.one h0).snoc ho

theorem mintAll_moves {now : Nat} (hN : Allows N now) (c : Coord I A) (hd : But (Due N now) [] c) :
    Moves cfg env X T N L c (c.mintAll cfg env now) := by
  unfold mintAll
  refine Moves.trans (b := { c with unminted := [] }) (.one (.book ⟨rfl, rfl, rfl, rfl, rfl, rfl, rfl, rfl, rfl, rfl, fun _ _ h => h, List.Sublist.refl _⟩)) ?_
  have hd0 : But (Due N now) [] ({ c with unminted := [] } : Coord I A) := hd
  revert hd0
  generalize ({ c with unminted := [] } : Coord I A) = c1
  generalize c.unminted = l
  intro hd0
  induction l generalizing c1 with
  | nil => exact .refl _
  | cons x l ih => exact (mintOne_moves c1 x hd0).trans (ih _ (But.mintOne' hN.promote now c1 x hd0))

theorem dialOne_running (now : Nat) (c : Coord I A) (d : Nat × A × Nat) :
    (c.dialOne cfg env X now d).ep.isRunning = c.ep.isRunning := by
  unfold dialOne
  simp only []
  split
  · simp only [callEp, Ep.step, Ep.dialFailed]
    rfl
  · rfl

theorem serviceDials_moves {now : Nat} (c : Coord I A) :
    Moves cfg env X T N L c (c.serviceDials cfg env X now) := by
  unfold serviceDials
  split
  · exact .refl c
  · next hr =>
    have hr' : c.ep.isRunning = true := by simpa using hr
    simp only []
    have h1 : Moves cfg env X T N L c { (c.callEp cfg env none .sieveDials).1 with dials := [] } :=
      (Moves.one (.call none .sieveDials trivial)).snoc (.book ⟨rfl, rfl, rfl, rfl, rfl, rfl, rfl, rfl, rfl, rfl, fun _ _ h => h, List.Sublist.refl _⟩)
    refine h1.trans ?_
    have hrun : ({ (c.callEp cfg env none .sieveDials).1 with dials := [] } : Coord I A).ep.isRunning = true := hr'
    revert hrun
    generalize ({ (c.callEp cfg env none .sieveDials).1 with dials := [] } : Coord I A) = c1
    generalize c.dials ++ dialsOf c.ep.sieveDials.2 = l
    clear h1
    intro hrun
    induction l generalizing c1 with
    | nil => exact .refl _
    | cons d l ih =>
      exact (Moves.one (.dial now d hrun)).trans (ih _ (by rw [dialOne_running]; exact hrun))

theorem flush_moves {now : Nat} (hN : Allows N now) (c : Coord I A) (hd : But (Due N now) c.dirty c) :
    Moves cfg env X T N L c (c.flush cfg env T now) :=
  (((pump_moves hN c).trans (mintAll_moves hN _ (hN.pumped hd))).trans (pump_moves hN _)).trans
    (collectTransmits_moves _)

theorem runTick_moves {now : Nat} (hN : Allows N now) (c : Coord I A) (hd : But (Due N now) c.dirty c) :
    Moves cfg env X T N L c (c.runTick cfg env X T now) := by
  have h1 : But (Due N now) [] ((c.pump cfg env T now).callEp cfg env none (.timeout now)).1 := hN.pumped hd
  have h2 := But.mintAll' (cfg := cfg) (env := env) hN.promote now h1
  have h3 := But.serviceDials' (cfg := cfg) (env := env) (X := X) (now := now)
    (fun b hb => (fun _ _ => hN.fresh b hb : Due N now b)) h2
  exact (((((((pump_moves hN c).snoc (.call none (.timeout now) trivial)).trans (mintAll_moves hN _ h1)).trans
    (serviceDials_moves _)).trans (mintAll_moves hN _ h3)).trans (pump_moves hN _)).trans
    (collectTransmits_moves _)).snoc (.book ⟨rfl, rfl, rfl, rfl, rfl, rfl, rfl, rfl, rfl, rfl, fun _ _ h => h, List.Sublist.refl _⟩)

theorem launch_moves (sid : Nat) (kind : ExKind) {now : Nat} (hN : Allows N now) (c : Coord I A)
    (hd : But (Due N now) c.dirty c) :
    Moves cfg env X T N L { c with kinds := c.kinds.insert sid kind } (c.launch cfg env X T sid kind now) := by
  unfold launch
  exact (serviceDials_moves _).trans (flush_moves hN _ (But.serviceDials now (c := { c with kinds := c.kinds.insert sid kind }) hd))

/-- A call marks the exchange it is for. -/
theorem But.mark {Q : Bridge I A → Prop} {c : Coord I A} (h : But Q c.dirty c) (x : Nat) (f : Bridge I A → Bridge I A) (t : Option Nat) :
    But Q (idInsert x c.dirty)
      ({ c with lastNow := t, conns := c.conns.modify x f, dirty := idInsert x c.dirty } : Coord I A) := by
  intro y b hb hy
  have hyx : y ≠ x := fun e => hy (mem_idInsert.2 (.inl e))
  refine h y b ?_ (fun hm => hy (mem_idInsert.2 (.inr hm)))
  simp only [Map.get?_modify] at hb
  rw [if_neg (by first | exact hyx | exact fun e => hyx e.symm)] at hb
  exact hb

/-- What `handle_transport_data` does to the bridge it is for. -/
def feedAll (env : Env I A) (T : TEnv) (bytes : Bytes) (eof : Bool) (now : Nat) (b : Bridge I A) : Bridge I A :=
  let b := if bytes = [] then b else b.feed env.CI env.CA T bytes now
  if eof then b.feed env.CI env.CA T [] now else b

/-- The first effect of a call. -/
inductive First (cfg : Cfg I A) (env : Env I A) (X : XCfg) (T : TEnv) (c : Coord I A) :
    XOp I A → Coord I A → Prop
  | plain {op : XOp I A} {c1 : Coord I A} : Same c c1 →
      ((∀ x bytes eof now, op ≠ .data x bytes eof now) ∧ (op = .pollTransport → c.out = []) ∧ op ≠ .pollAction) →
      First cfg env X T c op c1
  | feed (x : Nat) (bytes : Bytes) (eof : Bool) (now : Nat) :
      First cfg env X T c (.data x bytes eof now)
        { c with conns := c.conns.modify x (feedAll env T bytes eof now) }
  | dialFailed (x now : Nat) : First cfg env X T c (.dialFailed x now)
        { c with conns := c.conns.modify x (fun b => b.fail .dialRetired) }
  | transportError (x now : Nat) : First cfg env X T c (.transportError x now)
        { c with conns := c.conns.modify x (fun b => b.fail .connectionLost) }
  | leave (now : Nat) (farewell : Option Bytes) :
      First cfg env X T c (.leave now farewell) { c with connects := [] }
  | encrypt (ring : Option Keyring) : First cfg env X T c (.setEncryption ring) (c.setEncryption T ring)
  | compress (cmp : CmpOptions) : First cfg env X T c (.setCompression cmp)
        { c with cmp := cmp,
                 conns := c.conns.map (fun (e : Nat × Bridge I A) => (e.1, e.2.setCompression cmp)) }
  | popOut (e : Nat × A × Bytes) (rest : List (Nat × A × Bytes)) : c.out = e :: rest →
      First cfg env X T c .pollTransport { c with out := rest }
  | popAction : First cfg env X T c .pollAction c.pollAction.1
  | accept (src : A) (now x : Nat) : (c.accept cfg X src now).2 = some x →
      First cfg env X T c (.accept src now) (c.accept cfg X src now).1
  | gossip (src : A) (datagram : Bytes) (now : Nat) : c.ep.isRunning = true → c.ingress.length < MAX_INGRESS →
      First cfg env X T c (.gossip src datagram now)
        { c with lastNow := some now, ingress := c.ingress ++ [(src, datagram)] }

theorem pollEventLoop_moves (fuel : Nat) (c : Coord I A) :
    Moves cfg env X T N L c (pollEventLoop cfg env fuel c).1 := by
  induction fuel generalizing c with
  | zero => exact .refl c
  | succ fuel ih =>
    simp only [pollEventLoop]
    have h1 : Move cfg env X T N L c (c.callEp cfg env none .pollEvent).1 := .call none _ trivial
    split
    · exact .one h1
    · next sid peer d _ =>
      refine ((Moves.one h1).snoc (c := { (c.callEp cfg env none .pollEvent).1 with
        dials := (c.callEp cfg env none .pollEvent).1.dials ++ [(sid, peer, d)] }) (.book ⟨rfl, rfl, rfl, rfl, rfl, rfl, rfl, rfl, rfl, rfl, fun _ _ h => h, List.Sublist.refl _⟩)).trans (ih _)
    · exact .one h1

theorem leave_moves (hL : L) (now : Nat) (farewell : Option Bytes) (c : Coord I A) :
    Moves cfg env X T N L { c with connects := [] } (c.leave cfg env T now farewell) := by
  unfold leave
  simp only []
  refine Moves.snoc ?_ (.call none _ trivial (fun _ _ _ => hL))
  have h0 : Moves cfg env X T N L { c with connects := [] }
      { c with lastNow := some now, dials := [], kinds := [], connects := [], ingress := [], tick := c.tick + 1 } :=
    .one (.book ⟨rfl, rfl, rfl, rfl, rfl, rfl, rfl, rfl, rfl, rfl, fun _ _ h => (by cases h), List.nil_sublist _⟩)
  refine h0.trans ?_
  have hc : ({ c with lastNow := some now, dials := [], kinds := [], connects := [], ingress := [],
                      tick := c.tick + 1 } : Coord I A).connects = [] := rfl
  revert hc
  generalize ({ c with lastNow := some now, dials := [], kinds := [], connects := [], ingress := [],
                       tick := c.tick + 1 } : Coord I A) = c1
  generalize T.order c.tick ((c.metas.filter (fun e => e.2.outbound)).map Prod.fst) = l
  clear h0
  intro hc
  induction l generalizing c1 with
  | nil => exact .refl _
  | cons x l ih =>
    simp only [List.foldl_cons]
    split
    · next hb => exact (Moves.one (.cancel hL hc hb)).trans (ih _ hc)
    · exact ih _ hc

theorem step_moves_of (c : Coord I A) (op : XOp I A) (hN : ∀ now, Spec.instant op = some now → Allows N now)
    (hd : ∀ now, Spec.instant op = some now → But (Due N now) c.dirty c) :
    ∃ c1, First cfg env X T c op c1 ∧ Moves cfg env X T N (∃ now f, op = .leave now f) c1 (c.step cfg env X T op).1 := by
  cases op with
  | data x bytes eof now =>
    refine ⟨_, .feed x bytes eof now, ?_⟩
    simp only [step, transportData]
    exact (runTick_moves (hN now rfl) _ (But.mark (hd now rfl) x _ _)).after ⟨rfl, rfl, rfl, rfl, rfl, rfl, rfl, rfl, rfl, rfl, fun _ _ h => h, List.Sublist.refl _⟩
  | dialFailed x now =>
    refine ⟨_, .dialFailed x now, ?_⟩
    simp only [step, dialFailedX]
    exact (runTick_moves (hN now rfl) _ (But.mark (hd now rfl) x _ _)).after ⟨rfl, rfl, rfl, rfl, rfl, rfl, rfl, rfl, rfl, rfl, fun _ _ h => h, List.Sublist.refl _⟩
  | transportError x now =>
    refine ⟨_, .transportError x now, ?_⟩
    simp only [step, transportError]
    exact (runTick_moves (hN now rfl) _ (But.mark (hd now rfl) x _ _)).after ⟨rfl, rfl, rfl, rfl, rfl, rfl, rfl, rfl, rfl, rfl, fun _ _ h => h, List.Sublist.refl _⟩
  | accept src now =>
    cases h : (c.accept cfg X src now).2 with
    | some x => exact ⟨_, .accept src now x h, .refl _⟩
    | none =>
      refine ⟨_, .plain (c1 := (c.accept cfg X src now).1) ?_ ⟨by intros; simp, by simp, by simp⟩, .refl _⟩
      unfold accept at h ⊢
      simp only [] at h ⊢
      split
      · exact ⟨rfl, rfl, rfl, rfl, rfl, rfl, rfl, rfl, rfl, rfl, fun _ _ h => h, List.Sublist.refl _⟩
      · split
        · exact ⟨rfl, rfl, rfl, rfl, rfl, rfl, rfl, rfl, rfl, rfl, fun _ _ h => h, List.Sublist.refl _⟩
        · simp_all
  | startPushPull peer kind now =>
    refine ⟨{ c with lastNow := some now }, .plain ⟨rfl, rfl, rfl, rfl, rfl, rfl, rfl, rfl, rfl, rfl, fun _ _ h => h, List.Sublist.refl _⟩ ⟨by intros; simp, by simp, by simp⟩, ?_⟩
    exact (Moves.one (.start _ _ _ (.pushPull peer kind now))).trans (launch_moves _ _ (hN now rfl) _ (hd now rfl))
  | startReliablePing pid peer seq d now =>
    refine ⟨{ c with lastNow := some now }, .plain ⟨rfl, rfl, rfl, rfl, rfl, rfl, rfl, rfl, rfl, rfl, fun _ _ h => h, List.Sublist.refl _⟩ ⟨by intros; simp, by simp, by simp⟩, ?_⟩
    exact (Moves.one (.start _ _ _ (.reliablePing pid peer seq d))).trans (launch_moves _ _ (hN now rfl) _ (hd now rfl))
  | startUserMessage peer payload now =>
    refine ⟨{ c with lastNow := some now }, .plain ⟨rfl, rfl, rfl, rfl, rfl, rfl, rfl, rfl, rfl, rfl, fun _ _ h => h, List.Sublist.refl _⟩ ⟨by intros; simp, by simp, by simp⟩, ?_⟩
    simp only [step, startUserMessage]
    split
    · exact .one (.call none _ trivial)
    · next sid h =>
      exact (Moves.one (.start (c := { c with lastNow := some now }) _ _ _ (.userMessage peer payload now sid h))).trans
        (launch_moves _ _ (hN now rfl) _ (hd now rfl))
  | timeout now =>
    refine ⟨c, .plain (Same.refl c) ⟨by intros; simp, by simp, by simp⟩, ?_⟩
    simp only [step, timeout]
    have h0 : But (Due N now) ({ c with lastNow := some now, dirty := c.conns.keys.foldl (fun d x => idInsert x d) c.dirty } : Coord I A).dirty
        { c with lastNow := some now, dirty := c.conns.keys.foldl (fun d x => idInsert x d) c.dirty } :=
      fun y b hb hy => hd now rfl y b hb (fun hm => hy (mem_idInserts.2 (.inr hm)))
    exact (runTick_moves (hN now rfl) _ h0).after ⟨rfl, rfl, rfl, rfl, rfl, rfl, rfl, rfl, rfl, rfl, fun _ _ h => h, List.Sublist.refl _⟩
  | gossip src datagram now =>
    simp only [step, Coord.gossip]
    split
    · exact ⟨_, .plain (c1 := { c with lastNow := some now })
        ⟨rfl, rfl, rfl, rfl, rfl, rfl, rfl, rfl, rfl, rfl, fun _ _ h => h, List.Sublist.refl _⟩ ⟨by intros; simp, by simp, by simp⟩, .refl _⟩
    · next hr =>
      split
      · exact ⟨_, .plain (c1 := { c with lastNow := some now })
          ⟨rfl, rfl, rfl, rfl, rfl, rfl, rfl, rfl, rfl, rfl, fun _ _ h => h, List.Sublist.refl _⟩ ⟨by intros; simp, by simp, by simp⟩, .refl _⟩
      · next hl => exact ⟨_, .gossip src datagram now (by simpa using hr) (by simpa using hl), .refl _⟩
  | leave now farewell => exact ⟨_, .leave now farewell, leave_moves ⟨_, _, rfl⟩ now farewell c⟩
  | setEncryption ring => exact ⟨_, .encrypt ring, .refl _⟩
  | setCompression cmp =>
    refine ⟨_, .compress cmp, ?_⟩
    exact .one (.call none .setResponseCompression trivial)
  | pollTransport =>
    simp only [step, pollTransport]
    split
    · next h => exact ⟨c, .plain (Same.refl c) ⟨by intros; simp, fun _ => h, by simp⟩, .refl _⟩
    · next h => exact ⟨_, .popOut _ _ h, .refl _⟩
  | pollAction => exact ⟨_, .popAction, .refl _⟩
  | pollIngress =>
    refine ⟨c.pollIngress.1, .plain ?_ ⟨by intros; simp, by simp, by simp⟩, .refl _⟩
    unfold pollIngress
    split
    · exact ⟨rfl, rfl, rfl, rfl, rfl, rfl, rfl, rfl, rfl, rfl, fun _ _ h => h, List.Sublist.refl _⟩
    · next h => exact ⟨rfl, rfl, rfl, rfl, rfl, rfl, rfl, rfl, rfl, rfl, fun _ _ h => h, by rw [h]; exact List.sublist_cons_self ..⟩
  | pollEvent => exact ⟨c, .plain (Same.refl c) ⟨by intros; simp, by simp, by simp⟩, pollEventLoop_moves _ c⟩
  | requeueDial sid peer d now =>
    refine ⟨_, .plain (c1 := c.requeueDial sid peer d now) ?_ ⟨by intros; simp, by simp, by simp⟩, .refl _⟩
    unfold requeueDial
    simp only []
    split <;> exact ⟨rfl, rfl, rfl, rfl, rfl, rfl, rfl, rfl, rfl, rfl, fun _ _ h => h, List.Sublist.refl _⟩
  | direct d =>
    refine ⟨_, .plain (c1 := { c with lastNow := match d.op.2 with
                                     | some now => some now
                                     | none => c.lastNow }) ⟨rfl, rfl, rfl, rfl, rfl, rfl, rfl, rfl, rfl, rfl, fun _ _ h => h, List.Sublist.refl _⟩ ⟨by intros; simp, by simp, by simp⟩, ?_⟩
    simp only [step]
    exact .one (.call none _ (by cases d <;> trivial) (fun _ _ h => by cases d <;> cases h))

/-- The call is made at instant `t`. -/
def At (op : XOp I A) (t : Nat) (_ : Bridge I A) : Prop := Spec.instant op = some t

theorem step_moves (c : Coord I A) (op : XOp I A) :
    ∃ c1, First cfg env X T c op c1 ∧ Moves cfg env X T (At op) (∃ now f, op = .leave now f) c1 (c.step cfg env X T op).1 :=
  step_moves_of c op (fun _ h => ⟨fun _ _ => h, fun _ _ => h, fun _ _ => h⟩) (fun _ h _ _ _ _ _ _ => h)

/-- An invariant of the first effects and of the moves holds along every history. -/
theorem run_inv {P : Coord I A → Prop}
    (hf : ∀ {c op c1}, First cfg env X T c op c1 → P c → P c1)
    (hm : ∀ {N L c c'}, Move cfg env X T N L c c' → P c → P c') {c : Coord I A} (h : P c) (ops : List (XOp I A)) :
    P (c.run cfg env X T ops) := by
  induction ops generalizing c with
  | nil => exact h
  | cons op ops ih =>
    obtain ⟨c1, h1, h2⟩ := step_moves (cfg := cfg) (env := env) (X := X) (T := T) c op
    exact ih (h2.inv hm (hf h1 h))

end Verif.Coord
