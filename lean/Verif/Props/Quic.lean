import Verif.Proof.QuicStarted
import Verif.Example.Quic
/-
C94-C100: the QUIC node.

A history is any sequence of calls of the node's interface, from a node just made, over any QUIC library `Q` that is
sound: only a closed connection is drained, a closed connection opens no stream, and only the arrival of an event or of
a timeout drains a connection.
-/
namespace Verif.Props
open Verif Spec Map Quic
variable {I A : Type} [DecidableEq I] [DecidableEq A] {Q : Quinn A}
variable {cfg : Cfg I A} {env : Env I A} {X : QCfg} {T : TEnv}

/-! ### C94: gossip datagrams -/

/-- C94. The node never keeps more than 8192 gossip datagrams for the application, nor more than 1024 of one source. -/
theorem C94_bounded (hS : Q.Sound) {t0 : Nat} {e0 : Ep I A} (hnew : Ep.tryNew cfg env t0 = .ok e0) (q : Q.E)
    (cmp : CmpOptions) (ops : List (Quic.QOp I A)) :
    let s := (Quic.new e0 q cmp : Quic I Q).run cfg env X T ops
    s.ingress.length ≤ 8192 ∧ ∀ src, numFrom s.ingress src ≤ 1024 := by
  obtain ⟨h, _⟩ := node_run (X := X) (T := T) hS hnew q cmp ops
  exact ⟨h.ring.cap, fun src => by rw [← pendingOf_eq]; exact h.ring.capP src⟩

/-- C94. A gossip datagram that arrives within the limits waits behind the others; beyond them it is dropped and only
counted. -/
theorem C94_admitted (hS : Q.Sound) {t0 : Nat} {e0 : Ep I A} (hnew : Ep.tryNew cfg env t0 = .ok e0) (q : Q.E)
    (cmp : CmpOptions) (ops : List (Quic.QOp I A)) (src : A) (bytes : Bytes) (now : Nat)
    (hb : classifyDgram bytes = .memberlist) :
    let s := (Quic.new e0 q cmp : Quic I Q).run cfg env X T ops
    let s' := (Quic.new e0 q cmp : Quic I Q).run cfg env X T (ops ++ [.udp src bytes now])
    (numFrom s.ingress src < 1024 ∧ s.ingress.length < 8192 →
      s'.ingress = s.ingress ++ [(src, bytes)] ∧ s'.dropped = s.dropped) ∧
    (¬ (numFrom s.ingress src < 1024 ∧ s.ingress.length < 8192) →
      s' = { s with lastNow := some now, dropped := s.dropped + 1 }) := by
  intro s s'
  obtain ⟨h, _⟩ := node_run (X := X) (T := T) hS hnew q cmp ops
  have h : NodeInv cfg env X s := h
  have e : s' = ({ s with lastNow := some now } : Quic I Q).pushIngress src bytes := by
    show (Quic.new e0 q cmp : Quic I Q).run cfg env X T (ops ++ [.udp src bytes now]) = _
    rw [Quic.run_append]
    show s.udp cfg env X T src bytes now = _
    unfold udp
    rw [hb]
  have hc : ConnTable.count s.perPeer src = numFrom s.ingress src := by
    rw [← pendingOf_eq]; exact h.ring.counted.exact src
  have e2 : s' = if numFrom s.ingress src ≥ 1024 ∨ s.ingress.length ≥ 8192 then
      { s with lastNow := some now, dropped := s.dropped + 1 }
      else { s with lastNow := some now, ingress := s.ingress ++ [(src, bytes)], perPeer := bump s.perPeer src } := by
    rw [e, ← hc]; rfl
  constructor
  · rintro ⟨h1, h2⟩
    rw [e2, if_neg (by omega)]
    exact ⟨rfl, rfl⟩
  · intro hn
    rw [e2, if_pos (by omega)]

/-- C94. The datagrams that wait are handed out first, in the order they came, each once: as long as the keyring is not
changed, what is handed out and what then still waits begins with what waited before. -/
theorem C94_fifo (hS : Q.Sound) {t0 : Nat} {e0 : Ep I A} (hnew : Ep.tryNew cfg env t0 = .ok e0) (q : Q.E)
    (cmp : CmpOptions) (ops ops2 : List (Quic.QOp I A)) (hops : ∀ op ∈ ops2, ∀ ring, op ≠ .setEncryption ring) :
    let s := (Quic.new e0 q cmp : Quic I Q).run cfg env X T ops
    s.ingress <+: passedOut ops2 (s.outs cfg env X T ops2) ++ (s.run cfg env X T ops2).ingress := by
  obtain ⟨_, hi⟩ := node_run (X := X) (T := T) hS hnew q cmp ops
  exact run_feeds hS ops2 hi hops

/-- Two gossip datagrams and a QUIC one: two wait and are handed out in order. -/
example : classifyDgram [5, 1] = .memberlist ∧
    (Ex.q0.run Ex.cfg Ex.env Ex.QX0 Ex.T0 [.udp 101 [5, 1] 1, .udp 102 [0xC0] 1, .udp 102 [5, 2] 2]).ingress =
      [(101, [5, 1]), (102, [5, 2])] ∧
    passedOut ([.udp 101 [5, 1] 1, .pollIngress, .udp 102 [5, 2] 2, .pollIngress, .pollIngress] : List (Quic.QOp Nat Nat))
      (Ex.q0.outs Ex.cfg Ex.env Ex.QX0 Ex.T0
        [.udp 101 [5, 1] 1, .pollIngress, .udp 102 [5, 2] 2, .pollIngress, .pollIngress]) =
      [(101, [5, 1]), (102, [5, 2])] := by decide +kernel

/-! ### C95: waiting user messages -/

/-- C95. `can_admit_user_dials` is exact: it answers whether the user messages that wait for this peer and `n` more are
within the limit. -/
theorem C95_exact (hS : Q.Sound) {t0 : Nat} {e0 : Ep I A} (hnew : Ep.tryNew cfg env t0 = .ok e0) (q : Q.E)
    (cmp : CmpOptions) (ops : List (Quic.QOp I A)) (peer : A) (n : Nat) :
    let s := (Quic.new e0 q cmp : Quic I Q).run cfg env X T ops
    s.canAdmit X peer n = true ↔ waitingMessages s peer + n ≤ X.maxUserDials := by
  intro s
  obtain ⟨h, hi⟩ := node_run (X := X) (T := T) hS hnew q cmp ops
  have h : NodeInv cfg env X s := h
  have hi : Idle s := hi
  unfold canAdmit
  rw [h.books.backlog.exact, userTo_eq hi, decide_eq_true_iff]

/-- C95. A user message is refused for a full backlog exactly if as many as the limit wait for its peer, and the
refusal changes nothing. -/
theorem C95_refused (hS : Q.Sound) {t0 : Nat} {e0 : Ep I A} (hnew : Ep.tryNew cfg env t0 = .ok e0) (q : Q.E)
    (cmp : CmpOptions) (ops : List (Quic.QOp I A)) (peer : A) (payload : Bytes) (now : Nat) :
    let s := (Quic.new e0 q cmp : Quic I Q).run cfg env X T ops
    let r := s.step cfg env X T (.startUserMessage peer payload now)
    (r.2 = .started (.error .backlogFull) ↔ X.maxUserDials ≤ waitingMessages s peer) ∧
    (r.2 = .started (.error .backlogFull) → r.1 = s) := by
  intro s r
  obtain ⟨h, hi⟩ := node_run (X := X) (T := T) hS hnew q cmp ops
  have h : NodeInv cfg env X s := h
  have hi : Idle s := hi
  have hc : ConnTable.count s.backlog peer = waitingMessages s peer := by
    rw [h.books.backlog.exact, userTo_eq hi]
  have e : r = ((s.startUserMessage cfg env X T peer payload now).1, .started (s.startUserMessage cfg env X T peer payload now).2) := rfl
  unfold startUserMessage at e
  rw [hc] at e
  by_cases hx : X.maxUserDials ≤ waitingMessages s peer
  · rw [if_pos hx] at e
    rw [e]
    exact ⟨⟨fun _ => hx, fun _ => rfl⟩, fun _ => rfl⟩
  · rw [if_neg hx] at e
    have hne : r.2 ≠ .started (.error .backlogFull) := by
      rw [e]
      dsimp only
      split <;> simp
    exact ⟨⟨fun h => absurd h hne, fun h => absurd h hx⟩, fun h => absurd h hne⟩

/-- C95. The user messages the application started that wait for one peer are never more than the limit. -/
theorem C95_bounded (hS : Q.Sound) {t0 : Nat} {e0 : Ep I A} (hnew : Ep.tryNew cfg env t0 = .ok e0) (q : Q.E)
    (cmp : CmpOptions) (ops : List (Quic.QOp I A)) (peer : A) :
    startedMessages ((Quic.new e0 q cmp : Quic I Q).run cfg env X T ops) peer ≤ X.maxUserDials := by
  obtain ⟨_, hi⟩ := node_run (X := X) (T := T) hS hnew q cmp ops
  have h := started_run (X := X) (T := T) hS hnew q cmp ops peer
  unfold startedTo at h
  rw [hi.entries, List.countP_eq_length_filter] at h
  exact h

/-- Two messages wait for peer 101, which does not answer; the third is refused, one to another peer is not. -/
example :
    let s := Ex.q0.run Ex.cfg Ex.env Ex.QX0 Ex.T0 [.startUserMessage 101 [1] 5, .startUserMessage 101 [2] 5]
    startedMessages s 101 = 2 ∧ s.canAdmit Ex.QX0 101 1 = false ∧ s.canAdmit Ex.QX0 102 2 = true ∧
    (match (s.step Ex.cfg Ex.env Ex.QX0 Ex.T0 (.startUserMessage 101 [3] 6)).2 with
      | .started (.error .backlogFull) => true | _ => false) = true ∧
    (match (s.step Ex.cfg Ex.env Ex.QX0 Ex.T0 (.startUserMessage 102 [3] 6)).2 with
      | .started (.ok _) => true | _ => false) = true := by decide +kernel

/-! ### C96: what becomes of an exchange -/

/-- C96. An exchange is reported at most once. -/
theorem C96_once (hS : Q.Sound) {t0 : Nat} {e0 : Ep I A} (hnew : Ep.tryNew cfg env t0 = .ok e0) (q : Q.E)
    (cmp : CmpOptions) (ops : List (Quic.QOp I A)) (x : Nat) :
    (reportsOf (told ((Quic.new e0 q cmp : Quic I Q).run cfg env X T ops).calls x)).length ≤ 1 :=
  reported_once (node_run (X := X) (T := T) hS hnew q cmp ops).1 x

/-- C96. The report of an exchange carries its own id, and a reported exchange is over: no dial for it waits and no
stream carries it. -/
theorem C96_final (hS : Q.Sound) {t0 : Nat} {e0 : Ep I A} (hnew : Ep.tryNew cfg env t0 = .ok e0) (q : Q.E)
    (cmp : CmpOptions) (ops : List (Quic.QOp I A)) (x : Nat) {r : Completion A}
    (hr : Reported ((Quic.new e0 q cmp : Quic I Q).run cfg env X T ops) x r) :
    let s := (Quic.new e0 q cmp : Quic I Q).run cfg env X T ops
    r.exchange = x ∧ s.bridges.get? x = none ∧ (∀ d ∈ waitingDials s, d.id ≠ x) ∧ ∀ p k, ¬ Underway s x p k := by
  obtain ⟨h, hi⟩ := node_run (X := X) (T := T) hS hnew q cmp ops
  obtain ⟨h1, h2, _, h4, h5⟩ := reported_gone hi h hr
  refine ⟨h1, h4, h5, ?_⟩
  rintro p k ⟨hu, _⟩
  rw [h2] at hu
  cases hu

theorem fate_told {s : Quic I Q} (hi : Idle s) (h : NodeInv cfg env X s) {x : Nat} {p : A} {k : ExKind} (hf : Fate s x p k) :
    Underway s x p k ∨ (∃ ok, Reported s x ⟨x, p, ok, k⟩) ∨ (k = .reliablePing ∧ (some x, Ep.Op.dialFailed x) ∈ s.calls) := by
  rcases hf with ⟨h1, h2⟩ | ⟨ok, h1⟩ | h1
  · exact .inl (underway hi h h1 h2)
  · exact .inr (.inl ⟨ok, mem_told.2 h1⟩)
  · exact .inr (.inr h1)

/-- C96. A push/pull the application started does not vanish: at any later moment it is under way to its peer, or its
completion was reported, with its peer and its kind. -/
theorem C96_push_pull (hS : Q.Sound) {t0 : Nat} {e0 : Ep I A} (hnew : Ep.tryNew cfg env t0 = .ok e0) (q : Q.E)
    (cmp : CmpOptions) (ops ops2 : List (Quic.QOp I A)) (peer : A) (kind : PushPullKind) (now x : Nat)
    (hx : (((Quic.new e0 q cmp : Quic I Q).run cfg env X T ops).step cfg env X T (.startPushPull peer kind now)).2 =
      .started (.ok x)) :
    let s := (Quic.new e0 q cmp : Quic I Q).run cfg env X T (ops ++ .startPushPull peer kind now :: ops2)
    Underway s x peer .pushPull ∨ ∃ ok, Reported s x ⟨x, peer, ok, .pushPull⟩ := by
  intro s
  obtain ⟨h, hi⟩ := node_run (X := X) (T := T) hS hnew q cmp ops
  have h0 := startPushPull_fate (X := X) (T := T) hS peer kind now hi h
  obtain ⟨h1, hi1⟩ := node_from (X := X) (T := T) hS hi h [.startPushPull peer kind now]
  obtain ⟨h2, hi2⟩ := node_run (X := X) (T := T) hS hnew q cmp (ops ++ .startPushPull peer kind now :: ops2)
  have hx : Quic.QOut.started (.ok _) = Quic.QOut.started (.ok x) := hx
  injection hx with hx
  injection hx with hx
  rw [hx] at h0
  have h3 := Fate.run (T := T) hS hi1 h1 h0 ops2
  have e : ((((Quic.new e0 q cmp : Quic I Q).run cfg env X T ops).run cfg env X T [.startPushPull peer kind now]).run cfg env X T ops2) = s := by
    rw [← Quic.run_append, ← Quic.run_append]; rfl
  rw [e] at h3
  rcases fate_told hi2 h2 h3 with h | h | ⟨h, _⟩
  · exact .inl h
  · exact .inr h
  · cases h

/-- C96. So does a user message that was admitted. -/
theorem C96_user_message (hS : Q.Sound) {t0 : Nat} {e0 : Ep I A} (hnew : Ep.tryNew cfg env t0 = .ok e0) (q : Q.E)
    (cmp : CmpOptions) (ops ops2 : List (Quic.QOp I A)) (peer : A) (payload : Bytes) (now x : Nat)
    (hx : (((Quic.new e0 q cmp : Quic I Q).run cfg env X T ops).step cfg env X T (.startUserMessage peer payload now)).2 =
      .started (.ok x)) :
    let s := (Quic.new e0 q cmp : Quic I Q).run cfg env X T (ops ++ .startUserMessage peer payload now :: ops2)
    Underway s x peer .userMessage ∨ ∃ ok, Reported s x ⟨x, peer, ok, .userMessage⟩ := by
  intro s
  obtain ⟨h, hi⟩ := node_run (X := X) (T := T) hS hnew q cmp ops
  have hx : Quic.QOut.started _ = Quic.QOut.started (.ok x) := hx
  injection hx with hx
  have h0 := startUserMessage_fate (X := X) (T := T) hS peer payload now hi h hx
  obtain ⟨h1, hi1⟩ := node_from (X := X) (T := T) hS hi h [.startUserMessage peer payload now]
  obtain ⟨h2, hi2⟩ := node_run (X := X) (T := T) hS hnew q cmp (ops ++ .startUserMessage peer payload now :: ops2)
  have h3 := Fate.run (T := T) hS hi1 h1 h0 ops2
  have e : ((((Quic.new e0 q cmp : Quic I Q).run cfg env X T ops).run cfg env X T [.startUserMessage peer payload now]).run cfg env X T ops2) = s := by
    rw [← Quic.run_append, ← Quic.run_append]; rfl
  rw [e] at h3
  rcases fate_told hi2 h2 h3 with h | h | ⟨h, _⟩
  · exact .inl h
  · exact .inr h
  · cases h

/-- C96. A reliable ping started while the node runs is under way, was reported, or its dial failed and the endpoint,
whose probe it serves, was told so. -/
theorem C96_ping (hS : Q.Sound) {t0 : Nat} {e0 : Ep I A} (hnew : Ep.tryNew cfg env t0 = .ok e0) (q : Q.E)
    (cmp : CmpOptions) (ops ops2 : List (Quic.QOp I A)) (pid : I) (peer : A) (seq deadline now x : Nat)
    (hrun : ((Quic.new e0 q cmp : Quic I Q).run cfg env X T ops).ep.isRunning = true)
    (hx : (((Quic.new e0 q cmp : Quic I Q).run cfg env X T ops).step cfg env X T
      (.startReliablePing pid peer seq deadline now)).2 = .started (.ok x)) :
    let s := (Quic.new e0 q cmp : Quic I Q).run cfg env X T (ops ++ .startReliablePing pid peer seq deadline now :: ops2)
    Underway s x peer .reliablePing ∨ (∃ ok, Reported s x ⟨x, peer, ok, .reliablePing⟩) ∨
      (some x, Ep.Op.dialFailed x) ∈ s.calls := by
  intro s
  obtain ⟨h, hi⟩ := node_run (X := X) (T := T) hS hnew q cmp ops
  have h0 := startReliablePing_fate (X := X) (T := T) hS pid peer seq deadline now hi h hrun
  obtain ⟨h1, hi1⟩ := node_from (X := X) (T := T) hS hi h [.startReliablePing pid peer seq deadline now]
  obtain ⟨h2, hi2⟩ := node_run (X := X) (T := T) hS hnew q cmp (ops ++ .startReliablePing pid peer seq deadline now :: ops2)
  have hx : Quic.QOut.started (.ok _) = Quic.QOut.started (.ok x) := hx
  injection hx with hx
  injection hx with hx
  rw [hx] at h0
  have h3 := Fate.run (T := T) hS hi1 h1 h0 ops2
  have e : ((((Quic.new e0 q cmp : Quic I Q).run cfg env X T ops).run cfg env X T [.startReliablePing pid peer seq deadline now]).run cfg env X T ops2) = s := by
    rw [← Quic.run_append, ← Quic.run_append]; rfl
  rw [e] at h3
  rcases fate_told hi2 h2 h3 with h | h | ⟨_, h⟩
  · exact .inl h
  · exact .inr (.inl h)
  · exact .inr (.inr h)

/-- What was reported of an exchange. -/
def quicReports (s : Quic Nat Ex.wireQuinn) (x : Nat) : List (Nat × Nat × Bool × ExKind) :=
  (reportsOf (told s.calls x)).map (fun r => (r.exchange, r.peer, r.ok, r.kind))

/-- A join over QUIC: under way on a stream after the dial, reported as succeeded after the answer; reported as failed
if the connection is lost; a ping that cannot be dialled is not reported but told to the endpoint. -/
example :
    (Ex.q0.run Ex.cfg Ex.env Ex.QX0 Ex.T0 Ex.qDialOps).bridges.keys = [1] ∧
    quicReports (Ex.q0.run Ex.cfg Ex.env Ex.QX0 Ex.T0 Ex.qDialOps) 1 = [] ∧
    quicReports (Ex.q0.run Ex.cfg Ex.env Ex.QX0 Ex.T0 Ex.qJoinOps) 1 = [(1, 101, true, .pushPull)] ∧
    quicReports (Ex.q0.run Ex.cfg Ex.env Ex.QX0 Ex.T0 (Ex.qDialOps ++ [.udp 101 [0x40, 1, 5] 8])) 1 =
      [(1, 101, false, .pushPull)] ∧
    (let s := Ex.q0.run Ex.cfg Ex.env Ex.QX0 Ex.T0 [.startReliablePing 9 99 3 1000 5]
     Ex.q0.ep.isRunning = true ∧ quicReports s 1 = [] ∧
     s.calls.any (fun c => match c with | (some 1, .dialFailed 1) => true | _ => false) = true) := by decide +kernel

/-! ### C97: no panic -/

/-- C97. No history makes the node panic: wherever the code unwraps an entry that its own books say is there, it is
there. -/
theorem C97_no_panic (hS : Q.Sound) {t0 : Nat} {e0 : Ep I A} (hnew : Ep.tryNew cfg env t0 = .ok e0) (q : Q.E)
    (cmp : CmpOptions) (ops : List (Quic.QOp I A)) :
    ((Quic.new e0 q cmp : Quic I Q).run cfg env X T ops).panicked = false :=
  (node_run (X := X) (T := T) hS hnew q cmp ops).1.place.fine

/-! ### C98: streams -/

theorem tally_marks (m : Map Nat (QBridge I A)) (f : Nat × QBridge I A → Bool) (g : Nat × Bool × Nat → Bool)
    (h : ∀ e ∈ m, f e = g (mark e.2)) : (m.filter f).length = (marks m).countP g := by
  unfold marks
  rw [List.countP_map, ← List.countP_eq_length_filter]
  exact List.countP_congr (fun e he => by rw [h e he]; rfl)

/-- C98. The node never holds more exchanges opened by peers than `max_inbound_bridges`, and never runs more than 256
push/pulls and user messages of its own over one connection. -/
theorem C98_bounded (hS : Q.Sound) {t0 : Nat} {e0 : Ep I A} (hnew : Ep.tryNew cfg env t0 = .ok e0) (q : Q.E)
    (cmp : CmpOptions) (ops : List (Quic.QOp I A)) :
    let s := (Quic.new e0 q cmp : Quic I Q).run cfg env X T ops
    (∀ m, X.maxInbound = some m → acceptedStreams s ≤ m) ∧ ∀ ch, startedOn s ch ≤ 256 := by
  intro s
  obtain ⟨h, hi⟩ := node_run (X := X) (T := T) hS hnew q cmp ops
  have h : NodeInv cfg env X s := h
  constructor
  · intro m hm
    refine Nat.le_trans (Nat.le_of_eq ?_) (h.count.accepted m hm)
    exact tally_marks _ _ _ (fun e _ => rfl)
  · intro ch
    refine Nat.le_trans (Nat.le_of_eq ?_) (h.count.slots ch)
    refine tally_marks _ _ _ (fun e he => ?_)
    have hid : e.2.stream.id = e.1 := (h.held.bridge e.1 e.2 (get?_of_mem h.ids.bridges_nodup he)).1
    show (decide (e.2.ch = ch) && _) = (decide (e.2.ch = ch) && limited (s.kinds.get? e.2.stream.id))
    rw [hid]
    cases hk : s.kinds.get? e.1 with
    | none => rfl
    | some k => cases k <;> rfl

/-! ### C99: an exchange and its stream -/

/-- C99. An exchange runs over a stream of a connection the node holds, to the exchange's own peer. What arrives on a
stream reaches only the exchange that runs over it. -/
theorem C99_placed (hS : Q.Sound) {t0 : Nat} {e0 : Ep I A} (hnew : Ep.tryNew cfg env t0 = .ok e0) (q : Q.E)
    (cmp : CmpOptions) (ops : List (Quic.QOp I A)) :
    let s := (Quic.new e0 q cmp : Quic I Q).run cfg env X T ops
    (∀ x b, s.bridges.get? x = some b → b.stream.id = x ∧
      (∃ e, s.pool.table.conns.get? b.ch = some e ∧ e.peer = b.stream.peer) ∧
      ∀ p, s.peers.get? x = some p → b.stream.peer = p) ∧
    ∀ ch sid x, s.bySid.get? (ch, sid) = some x → ∃ b, s.bridges.get? x = some b ∧ b.ch = ch ∧ b.sid = sid := by
  obtain ⟨h, hi⟩ := node_run (X := X) (T := T) hS hnew q cmp ops
  exact ⟨fun x b hb => ⟨(h.held.bridge x b hb).1, h.place.conn x b hb, (h.held.bridge x b hb).2⟩, h.place.sids⟩

/-- Node 1 of the example has accepted a connection and a stream, and runs the exchange over it; a second stream is
refused at the limit of one. -/
example :
    let s := Ex.q1.run Ex.cfg1 Ex.env Ex.QX0 Ex.T0 (Ex.qAcceptOps.take 4)
    s.bridges.map (fun e => (e.1, e.2.ch, e.2.sid, e.2.stream.peer, e.2.eager)) = [(1, 1, 0, 100, false)] ∧
    s.bySid.get? (1, 0) = some 1 ∧ acceptedStreams s = 1 ∧ s.panicked = false ∧
    acceptedStreams (s.run Ex.cfg1 Ex.env Ex.QX0 Ex.T0 [.udp 100 [0x40, 1, 1, 4] 7]) = 1 ∧
    startedOn (Ex.q0.run Ex.cfg Ex.env Ex.QX0 Ex.T0 Ex.qDialOps) 1 = 1 := by decide +kernel

/-! ### C100: leaving -/

/-- C100. After `leave` no dial waits. Every dial that waited failed: the endpoint was told, and the application was
told of each push/pull and user message of its own. The exchanges that run over streams are left alone. -/
theorem C100_leave (hS : Q.Sound) {t0 : Nat} {e0 : Ep I A} (hnew : Ep.tryNew cfg env t0 = .ok e0) (q : Q.E)
    (cmp : CmpOptions) (ops : List (Quic.QOp I A)) (now : Nat) (farewell : Option Bytes)
    (hleft : ((Quic.new e0 q cmp : Quic I Q).run cfg env X T (ops ++ [.leave now farewell])).ep.isRunning = false) :
    let s := (Quic.new e0 q cmp : Quic I Q).run cfg env X T ops
    let s' := (Quic.new e0 q cmp : Quic I Q).run cfg env X T (ops ++ [.leave now farewell])
    waitingDials s' = [] ∧ s'.bridges = s.bridges ∧
    (∀ d ∈ waitingDials s, (some d.id, Ep.Op.dialFailed d.id) ∈ s'.calls) ∧
    ∀ x p k, Underway s x p k → s.bridges.get? x = none → k ≠ .reliablePing → Reported s' x ⟨x, p, false, k⟩ := by
  intro s s'
  obtain ⟨h, hi⟩ := node_run (X := X) (T := T) hS hnew q cmp ops
  have h : NodeInv cfg env X s := h
  have hi : Idle s := hi
  generalize hs1 : (({ s with lastNow := some now } : Quic I Q).callEp cfg env none (.leave now farewell)).1 = s1
  have e : s' = if s1.ep.isRunning then s1 else s1.purgeDials cfg env T := by
    show (Quic.new e0 q cmp : Quic I Q).run cfg env X T (ops ++ [.leave now farewell]) = _
    rw [Quic.run_append, ← hs1]
    rfl
  have hr : s1.ep.isRunning = false := by
    cases hc : s1.ep.isRunning with
    | false => rfl
    | true =>
      rw [if_pos hc] at e
      have hleft : s'.ep.isRunning = false := hleft
      rw [e, hc] at hleft
      cases hleft
  rw [if_neg (by rw [hr]; decide)] at e
  have hw : s1.waiting = s.waiting := by rw [← hs1]; rfl
  have hd : waitingDials s1 = waitingDials s := by rw [← hs1]; rfl
  have hb : s1.bridges = s.bridges := by rw [← hs1]; rfl
  have hl : ∀ x, s1.lastWords x = s.lastWords x := by intro x; rw [← hs1]; rfl
  have hn : (s1.waiting.map QDial.id).Nodup := by
    rw [hw]
    have := h.ids.held_nodup
    unfold Quic.held at this
    rw [hi.entries, ← hi.waiting] at this
    exact this.sublist (List.sublist_append_left _ _)
  obtain ⟨g1, g2, _, g4⟩ := purged (cfg := cfg) (env := env) (T := T) hn
  rw [← e] at g1 g2 g4
  rw [hd] at g4
  refine ⟨g1, g2.trans hb, ?_, ?_⟩
  · intro d hd'
    refine g4 d hd' _ ?_
    exact List.mem_append_right _ (List.mem_singleton.2 rfl)
  · rintro x p k ⟨u1, u2, u3⟩ hx hk
    rcases u3 with ⟨d, hd', rfl, _, _⟩ | ⟨b, hb', _⟩
    · refine mem_told.2 (g4 d hd' _ ?_)
      rw [hl]
      unfold lastWords
      refine List.mem_append_left _ ?_
      rw [u1, u2]
      cases k with
      | reliablePing => exact absurd rfl hk
      | _ => exact List.mem_singleton.2 rfl
    · rw [hx] at hb'; cases hb'

/-- A push/pull and a message to a peer that does not answer are reported as failed when the node leaves; the join that
runs over a stream goes on. -/
example :
    let s := Ex.q0.run Ex.cfg Ex.env Ex.QX0 Ex.T0 (Ex.qDialOps ++ [.startUserMessage 102 [7] 7, .startPushPull 102 .join 7])
    let s' := s.run Ex.cfg Ex.env Ex.QX0 Ex.T0 [.leave 8 none]
    s'.ep.isRunning = false ∧ (waitingDials s).map (·.id) = [2, 3] ∧ waitingDials s' = [] ∧ s'.bridges.keys = [1] ∧
    quicReports s' 2 = [(2, 102, false, .userMessage)] ∧ quicReports s' 3 = [(3, 102, false, .pushPull)] ∧
    quicReports s' 1 = [] := by decide +kernel

end Verif.Props
