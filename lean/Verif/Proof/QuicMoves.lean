import Verif.Model.Quic
import Verif.Proof.QuicBridge
import Verif.Proof.CoordMoves
import Verif.Proof.Deadline
/-
Every call of the QUIC node is a sequence of small moves. Invariants of the node are proved move by move.
-/
namespace Verif.Quic
open Verif Map QBridge
variable {I A : Type} [DecidableEq I] [DecidableEq A] {Q : Quinn A}

/-- Endpoint calls that bring no payload, hand out no stream and no dial request, start nothing and report nothing.
(`dial_succeeded` is one of them when its stream is not used.) -/
def Plain : Ep.Op I A → Prop
  | .streamEvent (.payload _) _ => False
  | .external _ | .acceptStream .. | .pollEvent | .sieveDials | .requeueDial .. => False
  | .startPushPullDirect .. | .startReliablePingDirect .. | .startUserMessageDirect .. => False
  | .startPushPull .. | .startReliablePing .. | .startUserMessage .. => False
  | _ => True

/-- The endpoint calls that start an exchange: its id, peer, deadline and kind. -/
inductive Started (cfg : Cfg I A) (env : Env I A) (e : Ep I A) : Ep.Op I A → Nat → A → Nat → ExKind → Prop
  | pushPull (peer : A) (kind : PushPullKind) (now : Nat) (i : DialIntent A) :
      (e.startPushPullDirect cfg env peer kind now).2.2 = some i →
      Started cfg env e (.startPushPullDirect peer kind now) (e.startPushPullDirect cfg env peer kind now).2.1 peer
        i.deadline .pushPull
  | reliablePing (pid : I) (peer : A) (seq deadline : Nat) (i : DialIntent A) :
      (e.startReliablePingDirect cfg env pid peer seq deadline).2.2 = some i →
      Started cfg env e (.startReliablePingDirect pid peer seq deadline)
        (e.startReliablePingDirect cfg env pid peer seq deadline).2.1 peer i.deadline .reliablePing
  | userMessage (peer : A) (payload : Bytes) (now id : Nat) (i : DialIntent A) :
      (e.startUserMessageDirect cfg env peer payload now).2 = .ok (id, i) →
      Started cfg env e (.startUserMessageDirect peer payload now) id peer i.deadline .userMessage

variable (cfg : Cfg I A) (env : Env I A) (X : QCfg) (T : TEnv)

/-- No dial timer is set. -/
macro "dial_timers" : tactic => `(tactic| first
  | exact fun _ => rfl
  | (intro _; simp only [Quic.refresh, Quic.refreshImmediate, Quic.setTimer, DeadlineIndex.deadlineOf_set]; rfl)
  | (intro _; simp [Quic.refresh, Quic.refreshImmediate, Quic.setTimer, DeadlineIndex.deadlineOf_set]))

/-- The answer the endpoint has to a payload, as it is sent. -/
def Answer (cfg : Cfg I A) (env : Env I A) (T : TEnv) (e : Ep I A) (ev : PayloadEvent I A) (now : Nat)
    (body : Bytes) : Prop :=
  ∃ p cmp, (e.handleStreamEvent cfg env (.payload ev) now).2 = some (.sendResponse p) ∧
    body = compressPayload T.B cmp (Ep.encodeBytes env (.pushPull p))

/-- What the node does within a call. -/
inductive Move : Quic I Q → Quic I Q → Prop
  | book {s : Quic I Q} (index : DeadlineIndex TimerKey) (eventful : List Nat) (catchupAt : Option Nat) (freed : List A)
      (readyDials : List A) (tick : Nat) (capped : Bool) (lastNow : Option Nat) (cmp : CmpOptions) (ring : Option Keyring)
      (stale loose ready : List Nat) (dropped : Nat) (quinn : Q.E) (out : List (A × Bytes))
      (hix : ∀ id, index.deadlineOf (.dial id) = s.index.deadlineOf (.dial id) := by dial_timers) :
      Move s { s with
        index := index, eventful := eventful, catchupAt := catchupAt, freed := freed, readyDials := readyDials
        tick := tick, capped := capped, lastNow := lastNow, cmp := cmp, ring := ring, stale := stale, loose := loose
        ready := ready, dropped := dropped, pool := { s.pool with quinn := quinn, out := out } }
  | call {s : Quic I Q} (x : Option Nat) (op : Ep.Op I A) (hp : Plain op) : Move s (s.callEp cfg env x op).1
  | noop {s : Quic I Q} (x : Option Nat) (op : Ep.Op I A) (he : (s.ep.step cfg env op).1 = s.ep)
      (hx : ∀ r, op ≠ .external r) (hpay : ∀ ev now, op ≠ .streamEvent ev now) : Move s (s.callEp cfg env x op).1
  | commit {s : Quic I Q} {id : Nat} {b : QBridge I A} {ev : PayloadEvent I A} {rest : List (PayloadEvent I A)}
      {b' : QBridge I A} (now : Nat) (hb : s.bridges.get? id = some b) (hev : b.stream.endpointEvents = ev :: rest)
      (hr : b.Ripe) (hb' : b.Committed (Answer cfg env T s.ep ev now) ev rest b') :
      Move s { (s.callEp cfg env (some id) (.streamEvent (.payload ev) now)).1 with
        bridges := s.bridges.insert id b' }
  | tweak {s : Quic I Q} {id : Nat} {b b' : QBridge I A} (hb : s.bridges.get? id = some b)
      (hm : BMove env.CI env.CA T b b') : Move s { s with bridges := s.bridges.insert id b' }
  | conn {s : Quic I Q} {ch : Nat} {t' : ConnTable Q.C Q.V A} (h : ConnStep Q (s.hot = some ch) ch s.pool.table t') :
      Move s { s with pool := { s.pool with table := t' } }
  | reconcile {s : Quic I Q} (ch : Nat) :
      Move s { s with pool := { s.pool with table := s.pool.table.reconcile Q ch } }
  | dial {s : Quic I Q} (now : Nat) (peer : A) : Move s { s with pool := (s.pool.dial Q X.caps now peer).1 }
  | arrive {s : Quic I Q} (now : Nat) (src : A) (bytes : Bytes) (hh : s.hot = none) :
      Move s { s with pool := (s.pool.datagram Q X.caps now src bytes).1
                      hot := (s.pool.datagram Q X.caps now src bytes).2 }
  | heat {s : Quic I Q} (ch : Nat) (hh : s.hot = none ∨ s.hot = some ch) : Move s { s with hot := some ch }
  | cool {s : Quic I Q} (hd : s.doom = [])
      (hh : ∀ ch e, s.hot = some ch → s.pool.table.conns.get? ch = some e → Q.drained e.conn = true →
        s.byConn.get? ch = none) : Move s { s with hot := none }
  | reapConn {s : Quic I Q} (ch : Nat) (hh : s.hot = none) :
      Move s { s with pool := { s.pool with table := (s.pool.table.reapIfDrained Q s.pool.quinn ch).1 } }
  | forget {s : Quic I Q} (ch : Nat) (hn : s.pool.table.conns.get? ch = none) :
      Move s { s with byConn := s.byConn.erase ch }
  | push {s : Quic I Q} (src : A) (bytes : Bytes) : Move s (s.pushIngress src bytes)
  | sieve {s : Quic I Q} (hh : s.hand = []) : Move s (s.sieve cfg env).takeDials
  | pollDial {s : Quic I Q} (id : Nat) (peer : A) (deadline : Nat)
      (h : s.ep.pollEvent.2 = some (.dialRequested id peer deadline)) :
      Move s (((s.callEp cfg env none .pollEvent).1.queueDial
        (fromRequest (s.callEp cfg env none .pollEvent).1.ep (id, peer, deadline))).setTimer (.dial id) (some deadline))
  | pollOther {s : Quic I Q} (h : ∀ id peer deadline, s.ep.pollEvent.2 ≠ some (.dialRequested id peer deadline)) :
      Move s (s.callEp cfg env none .pollEvent).1
  | takeDials {s : Quic I Q} (hh : s.hand = []) : Move s s.takeDials
  | takeParked {s : Quic I Q} (hh : s.hand = []) : Move s (s.takeParked T)
  | popParked {s : Quic I Q} (peer : A) (d : QDial A) (rest : List (QDial A)) (hh : s.hand = [])
      (hp : s.parked.get? peer = some (d :: rest)) : Move s (s.popParked peer d rest)
  | dropBucket {s : Quic I Q} (peer : A) (hp : s.parked.get? peer = some []) :
      Move s { s with parked := s.parked.erase peer }
  | takeEntry {s : Quic I Q} (d : QDial A) (rest : List (QDial A)) (hh : s.hand = d :: rest) (hl : s.limbo = none) :
      Move s (s.takeEntry d)
  | repark {s : Quic I Q} (d : QDial A) (now : Nat) (hl : s.limbo = some d) : Move s (s.repark X d now)
  | retire {s : Quic I Q} (d : QDial A) (hl : s.limbo = some d) : Move s (s.retire cfg env d.id)
  | dialLost {s : Quic I Q} (now : Nat) (peer : A) (ch : Nat) (hd : (s.pool.dial Q X.caps now peer).2 = .ok ch)
      (hn : (s.pool.dial Q X.caps now peer).1.table.conns.get? ch = none) :
      Move s { s with pool := (s.pool.dial Q X.caps now peer).1, limbo := none }
  | mint {s : Quic I Q} (d : QDial A) (now ch sid : Nat) (e : QConn Q.C Q.V A) (t : ConnTable Q.C Q.V A) (st : Stream I A)
      (hl : s.limbo = some d) (hd : (s.pool.dial Q X.caps now d.peer).2 = .ok ch)
      (he : (s.pool.dial Q X.caps now d.peer).1.table.conns.get? ch = some e)
      (hc : d.kind = .reliablePing ∨ e.outbound < C_OUT)
      (ht : (s.pool.dial Q X.caps now d.peer).1.table.on Q ch (fun e => e.via Q Q.openBi) = (t, some (some sid)))
      (hst : (s.ep.step cfg env (.dialSucceeded d.id now)).2 = .stream (some st)) :
      Move s ((({ s with pool := { (s.pool.dial Q X.caps now d.peer).1 with table := t } } : Quic I Q).callEp cfg env
        (some d.id) (.dialSucceeded d.id now)).1.mintDialled cfg X st ch sid)
  | accept {s : Quic I Q} (ch sid now : Nat) (e : QConn Q.C Q.V A) (st : Stream I A)
      (hh : s.hot = some ch) (hd : s.doom = []) (he : s.pool.table.conns.get? ch = some e)
      (hc : ∀ m, X.maxInbound = some m → s.inbound < m)
      (hst : (s.ep.step cfg env (.acceptStream e.peer now)).2 = .stream (some st)) :
      Move s ((s.callEp cfg env none (.acceptStream e.peer now)).1.openBridge cfg X st ch sid false)
  | launch {s : Quic I Q} (op : Ep.Op I A) (id : Nat) (peer : A) (deadline : Nat) (kind : ExKind)
      (hh : s.hand = []) (hl : s.limbo = none) (hs : Started cfg env s.ep op id peer deadline kind)
      (hk : kind = .userMessage → ConnTable.count s.backlog peer < X.maxUserDials) :
      Move s ((s.callEp cfg env none op).1.launch id peer deadline kind)
  | inert {s : Quic I Q} (peer : A) (kind : PushPullKind) (now : Nat)
      (hn : (s.ep.startPushPullDirect cfg env peer kind now).2.2 = none) :
      Move s ((s.callEp cfg env none (.startPushPullDirect peer kind now)).1.report cfg env
        (s.ep.startPushPullDirect cfg env peer kind now).2.1 peer false .pushPull)
  | burn {s : Quic I Q} (pid : I) (peer : A) (seq deadline : Nat)
      (hn : (s.ep.startReliablePingDirect cfg env pid peer seq deadline).2.2 = none) :
      Move s (s.callEp cfg env none (.startReliablePingDirect pid peer seq deadline)).1
  | takeBucket {s : Quic I Q} (ch : Nat) (hh : s.hot = some ch) (hd : s.doom = []) : Move s (s.takeBucket ch)
  | doomGone {s : Quic I Q} (id : Nat) (rest : List Nat) (hd : s.doom = id :: rest) (hb : s.bridges.get? id = none) :
      Move s { s with doom := s.doom.tail }
  | reap {s : Quic I Q} (id ch : Nat) (b : QBridge I A) (lost : Bool) (hb : s.bridges.get? id = some b)
      (ht : b.isTerminal = true) (hev : b.stream.endpointEvents = [])
      (hl : if lost then s.hot = some ch ∧ ∃ rest, s.doom = id :: rest else b.ch = ch ∧ s.doom = []) :
      Move s (s.reapBridge cfg env id b ch lost)

/-- A sequence of moves. -/
inductive Moves : Quic I Q → Quic I Q → Prop
  | refl (s : Quic I Q) : Moves s s
  | snoc {a b c : Quic I Q} : Moves a b → Move cfg env X T b c → Moves a c

variable {cfg env X T}

theorem Moves.one {a b : Quic I Q} (h : Move cfg env X T a b) : Moves cfg env X T a b := .snoc (.refl a) h

theorem Moves.trans {a b c : Quic I Q} (h : Moves cfg env X T a b) (h2 : Moves cfg env X T b c) :
    Moves cfg env X T a c := by
  induction h2 with
  | refl => exact h
  | snoc _ hm ih => exact .snoc ih hm

theorem Moves.inv {P : Quic I Q → Prop} (hP : ∀ a b, P a → Move cfg env X T a b → P b) {a b : Quic I Q}
    (h : Moves cfg env X T a b) (ha : P a) : P b := by
  induction h with
  | refl => exact ha
  | snoc _ hm ih => exact hP _ _ ih hm

/-- Moves that leave the locals of the loops as they were. -/
structure Went (cfg : Cfg I A) (env : Env I A) (X : QCfg) (T : TEnv) (s s' : Quic I Q) : Prop where
  moves : Moves cfg env X T s s'
  hot : s'.hot = s.hot
  doom : s'.doom = s.doom
  hand : s'.hand = s.hand
  limbo : s'.limbo = s.limbo

theorem Went.refl (s : Quic I Q) : Went cfg env X T s s := ⟨.refl s, rfl, rfl, rfl, rfl⟩
theorem Went.one {a b : Quic I Q} (h : Move cfg env X T a b) (h1 : b.hot = a.hot := by rfl)
    (h2 : b.doom = a.doom := by rfl) (h3 : b.hand = a.hand := by rfl) (h4 : b.limbo = a.limbo := by rfl) :
    Went cfg env X T a b := ⟨.one h, h1, h2, h3, h4⟩
theorem Went.trans {a b c : Quic I Q} (h : Went cfg env X T a b) (h2 : Went cfg env X T b c) : Went cfg env X T a c :=
  ⟨h.moves.trans h2.moves, h2.hot.trans h.hot, h2.doom.trans h.doom, h2.hand.trans h.hand, h2.limbo.trans h.limbo⟩
theorem Went.snoc {a b c : Quic I Q} (h : Went cfg env X T a b) (h0 : Move cfg env X T b c) (h1 : c.hot = b.hot := by rfl)
    (h2 : c.doom = b.doom := by rfl) (h3 : c.hand = b.hand := by rfl) (h4 : c.limbo = b.limbo := by rfl) :
    Went cfg env X T a c := h.trans (.one h0 h1 h2 h3 h4)

/-- A loop of steps. -/
theorem Went.fold {α : Type} (f : Quic I Q → α → Quic I Q) {P : Quic I Q → Prop}
    (hP : ∀ s s', Went cfg env X T s s' → P s → P s')
    (hf : ∀ s x, P s → Went cfg env X T s (f s x)) : ∀ (l : List α) (s : Quic I Q), P s →
      Went cfg env X T s (l.foldl f s) := by
  intro l
  induction l with
  | nil => intro s _; exact .refl s
  | cons x l ih => intro s hs; exact (hf s x hs).trans (ih _ (hP _ _ (hf s x hs) hs))

/-- Bookkeeping only. -/
theorem Went.books {s s' : Quic I Q}
    (h : ∃ index eventful catchupAt freed readyDials tick capped lastNow cmp ring stale loose ready dropped quinn out,
      s' = { s with
        index := index, eventful := eventful, catchupAt := catchupAt, freed := freed, readyDials := readyDials
        tick := tick, capped := capped, lastNow := lastNow, cmp := cmp, ring := ring, stale := stale, loose := loose
        ready := ready, dropped := dropped, pool := { s.pool with quinn := quinn, out := out } })
    (hix : ∀ id, s'.index.deadlineOf (.dial id) = s.index.deadlineOf (.dial id) := by dial_timers) : Went cfg env X T s s' := by
  obtain ⟨_, _, _, _, _, _, _, _, _, _, _, _, _, _, _, _, rfl⟩ := h
  exact .one (.book (hix := hix) ..)

end Verif.Quic
