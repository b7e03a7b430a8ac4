import Verif.Proof.QuicAuth
import Verif.Example.Quic
/-
C102 to C105: what a QUIC node tells its endpoint, and what its streams carry.

A history is any sequence of calls of the node's interface (see Props/Quic). `calls` are the calls the node made on its
endpoint, in order, with the exchange each belongs to. The vocabulary is in Spec/QuicWire.
-/
namespace Verif.Props
open Verif Spec Quic
variable {I A : Type} [DecidableEq I] [DecidableEq A] {Q : Quinn A}
variable {cfg : Cfg I A} {env : Env I A} {X : QCfg} {T : TEnv}

/-- C102. The endpoint inside a QUIC node is an endpoint after some history of its own calls, namely those the node
made: the node changes it in no other way. So everything that is true of every endpoint after every history is true of
it. -/
theorem C102_endpoint (hS : Q.Sound) {t0 : Nat} {e0 : Ep I A} (hnew : Ep.tryNew cfg env t0 = .ok e0) (q : Q.E)
    (cmp : CmpOptions) (ops : List (Quic.QOp I A)) :
    let s := (Quic.new e0 q cmp : Quic I Q).run cfg env X T ops
    s.ep = e0.run cfg env (s.calls.map Prod.snd) ∧ Reachable cfg env s.ep := by
  intro s
  have h : WireInv cfg env X T e0 s := Quic.wire_run hS hnew q cmp ops
  exact ⟨h.ep, t0, e0, _, hnew, h.ep⟩

/-- The record is not empty: joining made these calls, and the node knows the other one. -/
example : (Ex.q0.run Ex.cfg Ex.env Ex.QX0 Ex.T0 Ex.qJoinOps).calls.length > 3 ∧
    (Ex.q0.run Ex.cfg Ex.env Ex.QX0 Ex.T0 Ex.qJoinOps).ep.core.members.length = 2 := by decide +kernel

/-- C103. The endpoint is given the content of a reliable exchange only after the peer ended its half of the QUIC stream
of that exchange, and only if all that was read from the stream until then is: the label header of this cluster (if it
has a label), and behind it a whole number of units that together carry one message which answers what the exchange was
opened for. The one exception would be a QUIC stack that hands out bytes of a stream it was told to stop. -/
theorem C103_authorised (hS : Q.Sound) {t0 : Nat} {e0 : Ep I A} (hnew : Ep.tryNew cfg env t0 = .ok e0) (q : Q.E)
    (cmp : CmpOptions) (ops : List (Quic.QOp I A)) {o : Option Nat} {ev : PayloadEvent I A} {t : Nat}
    (hm : (o, Ep.Op.streamEvent (.payload ev) t) ∈ ((Quic.new e0 q cmp : Quic I Q).run cfg env X T ops).calls)
    (hq : ∀ x b, Carries ((Quic.new e0 q cmp : Quic I Q).run cfg env X T ops) x b → b.late = false) :
    let s := (Quic.new e0 q cmp : Quic I Q).run cfg env X T ops
    ∃ (x : Nat) (b : QBridge I A) (op : Ep.Op I A) (s0 : Stream I A) (l : List Bytes) (post : List Got) (body plain : Bytes),
      o = some x ∧ Carries s x b ∧
      OpenedBy cfg env e0 s.calls x op s0 ∧ Opens b.eager x op ∧
      b.got = l.map .bytes ++ .fin :: post ∧
      Behind X.label X.skipLabel l.flatten body ∧
      Units T.B none cfg.maxStreamFrameSize body plain ∧
      Delivers env.CI env.CA s0 plain ev := by
  intro s
  have h : WireInv cfg env X T e0 s := Quic.wire_run hS hnew q cmp ops
  obtain ⟨x, b, h1, h2, s0, op, h3, h4, h5⟩ := h.told o ev t hm
  rcases h5 with h5 | ⟨l, post, h5, body, plain, h6, h7, h8⟩
  · have := hq x b h2
    rw [h5] at this
    cases this
  · exact ⟨x, b, op, s0, l, post, body, plain, h1, h2, h3, h4, h5, behind_effective.1 h6, h7, h8⟩

/-- The answer to a join is committed once it is whole; before its last byte, or under another label, nothing is. No
stream was read after it was stopped. -/
example :
    let n := fun ops => ((Ex.q0.run Ex.cfg Ex.env Ex.QX0 Ex.T0 ops).calls.filter
      (fun c => match c.2 with | .streamEvent (.payload _) _ => true | _ => false)).length
    let s := Ex.q0.run Ex.cfg Ex.env Ex.QX0 Ex.T0 Ex.qJoinOps
    n Ex.qJoinOps = 1 ∧ n Ex.qDialOps = 0 ∧
    n (Ex.qDialOps ++ [.udp 101 (0x40 :: 1 :: 2 :: 0 :: Ex.qAnswer.dropLast) 8, .udp 101 [0x40, 1, 3, 0] 8]) = 0 ∧
    n (Ex.qDialOps ++ [.udp 101 (0x40 :: 1 :: 2 :: 0 :: 12 :: 2 :: 97 :: 97 :: Ex.qAnswer.drop 4) 8,
      .udp 101 [0x40, 1, 3, 0] 8]) = 0 ∧
    s.bridges.keys = [] ∧ s.gone.map (fun b => (b.stream.id, b.late)) = [(1, false)] := by decide +kernel

/-- C104. What a node hands to QUIC on the stream of an exchange is, at any time, a prefix of: the label header of the
cluster and at most one unit, and on a stream the node opened that unit is its request, compressed as the node was set
up when it opened the stream. -/
theorem C104_written (hS : Q.Sound) {t0 : Nat} {e0 : Ep I A} (hnew : Ep.tryNew cfg env t0 = .ok e0) (q : Q.E)
    (cmp : CmpOptions) (ops : List (Quic.QOp I A)) {x : Nat} {b : QBridge I A}
    (hb : Carries ((Quic.new e0 q cmp : Quic I Q).run cfg env X T ops) x b) :
    let s := (Quic.new e0 q cmp : Quic I Q).run cfg env X T ops
    ∃ op s0 u, OpenedBy cfg env e0 s.calls x op s0 ∧ Opens b.eager x op ∧
      (u = [] ∨ ∃ body, QUnit body u ∧ (b.eager = true → body = compressPayload T.B b.cmp s0.outputBuf.flatten)) ∧
      b.put <+: header X.label ++ u ∧
      (b.finishCalled = true → b.put = header X.label ++ u ∧ (b.eager = true → u ≠ [])) := by
  intro s
  have h : WireInv cfg env X T e0 s := Quic.wire_run hS hnew q cmp ops
  have hc : Carried cfg env X T e0 s.calls x b := by
    rcases hb with hb | ⟨hb, rfl⟩
    · exact h.live x b hb
    · exact h.past b hb
  have hh : b.prefixBytes = header X.label := by
    unfold QBridge.prefixBytes
    rw [hc.label]
    unfold effectiveLabel header
    cases X.label with
    | none => rfl
    | some l => cases l <;> rfl
  have hne : ∀ {u body : Bytes}, QUnit body u → u ≠ [] := by
    intro u body h1 h2
    have h3 := encodeVarint_pos (body.length % 2 ^ 32)
    have h4 := congrArg List.length (h2.symm.trans h1)
    rw [List.length_append, List.length_nil] at h4
    omega
  obtain ⟨s0, op, n, h1, h2, _, _, h5, _⟩ := hc.source
  have hun : ∀ {u}, QBridge.Unit_ T s0 (Quic.Ans cfg env T e0 s.calls x s0 b) b u →
      ∃ body, QUnit body u ∧ (b.eager = true → body = compressPayload T.B b.cmp s0.outputBuf.flatten) :=
    fun ⟨body, k1, k2, _⟩ => ⟨body, k1, k2⟩
  cases hf : b.finishCalled with
  | false =>
    obtain ⟨u, g1, g2⟩ := h5.all
    rw [hh] at g2
    exact ⟨op, s0, u, h1, h2, g1.imp id hun, (List.prefix_append _ _).trans g2, by simp⟩
  | true =>
    obtain ⟨_, _, ⟨u, g1, g2⟩, _⟩ := h5.fin hf
    rw [hh] at g2
    refine ⟨op, s0, u, h1, h2, ?_, by rw [g2], fun _ => ⟨g2, fun he => ?_⟩⟩
    · rcases g1 with ⟨_, g1⟩ | ⟨_, _, g1⟩
      · exact .inr (hun g1)
      · exact .inl g1
    · rcases g1 with ⟨_, _, g1, _⟩ | ⟨g1, _⟩
      · exact hne g1
      · rw [he] at g1; cases g1

/-- C104. On a stream that a peer opened the node writes nothing, not even its label, until what it read there began with
the label header the cluster demands. -/
theorem C104_discreet (hS : Q.Sound) {t0 : Nat} {e0 : Ep I A} (hnew : Ep.tryNew cfg env t0 = .ok e0) (q : Q.E)
    (cmp : CmpOptions) (ops : List (Quic.QOp I A)) {x : Nat} {b : QBridge I A}
    (hb : Carries ((Quic.new e0 q cmp : Quic I Q).run cfg env X T ops) x b) (he : b.eager = false) (hp : b.put ≠ []) :
    ∃ w rest body, readOf b.got = w ++ rest ∧ Behind X.label X.skipLabel w body := by
  generalize hs : (Quic.new e0 q cmp : Quic I Q).run cfg env X T ops = s at hb
  have h : WireInv cfg env X T e0 s := by rw [← hs]; exact Quic.wire_run hS hnew q cmp ops
  have hc : Carried cfg env X T e0 s.calls x b := by
    rcases hb with hb | ⟨hb, rfl⟩
    · exact h.live x b hb
    · exact h.past b hb
  obtain ⟨s0, op, n, h1, h2, _, _, h5, _⟩ := hc.source
  cases ho : b.outboundWritten with
  | false => exact absurd (h5.blank ho).1 hp
  | true =>
    rw [h5.shown he] at ho
    obtain ⟨w, rest, body, g1, g2⟩ := h5.seen ho
    rw [hc.label, hc.skip] at g2
    exact ⟨w, rest, body, g1, behind_effective.1 g2⟩

/-- C105. On a stream that a peer opened, what a node hands to QUIC is, at any time, a prefix of: the label header of the
cluster and at most one unit. That unit is an answer to what that very stream brought: the push/pull which the endpoint
handed out when it was given what the stream brought, or the acknowledgement of a ping for this node that was read from
it; compressed. -/
theorem C105_answer (hS : Q.Sound) {t0 : Nat} {e0 : Ep I A} (hnew : Ep.tryNew cfg env t0 = .ok e0) (q : Q.E)
    (cmp : CmpOptions) (ops : List (Quic.QOp I A)) {x : Nat} {b : QBridge I A}
    (hb : Carries ((Quic.new e0 q cmp : Quic I Q).run cfg env X T ops) x b) (he : b.eager = false) :
    let s := (Quic.new e0 q cmp : Quic I Q).run cfg env X T ops
    ∃ op s0 u, OpenedBy cfg env e0 s.calls x op s0 ∧ Opens false x op ∧ b.put <+: header X.label ++ u ∧
      (u = [] ∨ ∃ body, QUnit body u ∧
        (AnsweredBy cfg env T.B e0 s.calls x body ∨
         Pinged env.CI env.CA T.B X.label X.skipLabel cfg.maxStreamFrameSize b.cmp s0 (readOf b.got) body)) := by
  intro s
  have h : WireInv cfg env X T e0 s := Quic.wire_run hS hnew q cmp ops
  have hc : Carried cfg env X T e0 s.calls x b := by
    rcases hb with hb | ⟨hb, rfl⟩
    · exact h.live x b hb
    · exact h.past b hb
  have hh : b.prefixBytes = header X.label := by
    unfold QBridge.prefixBytes
    rw [hc.label]
    unfold effectiveLabel header
    cases X.label with
    | none => rfl
    | some l => cases l <;> rfl
  obtain ⟨s0, op, n, h1, h2, _, _, h5, _⟩ := hc.source
  obtain ⟨u, g1, g2⟩ := h5.all
  rw [hh] at g2
  rw [he] at h2
  refine ⟨op, s0, u, h1, h2, (List.prefix_append _ _).trans g2, g1.imp id ?_⟩
  rintro ⟨body, k1, _, k3⟩
  refine ⟨body, k1, (k3 he).imp id ?_⟩
  rintro ⟨w, rest, wire, used, left, plain, out, j1, j2, j3, j4, j5, j6⟩
  rw [hc.label, hc.skip] at j2
  rw [hc.max] at j4
  exact ⟨w, rest, used, left, plain, out, j1, by rw [← j3]; exact behind_effective.1 j2, j4, j5, j6⟩

/-- Node 0 writes its request behind the label and ends its half; node 1 answers only once the request came. -/
example :
    let s := Ex.q0.run Ex.cfg Ex.env Ex.QX0 Ex.T0 Ex.qDialOps
    let s1 := fun k => Ex.q1.run Ex.cfg1 Ex.env Ex.QX0 Ex.T0 (Ex.qAcceptOps.take k)
    s.bridges.map (fun p => (p.1, p.2.eager, p.2.put == Ex.qWire, p.2.finishCalled)) = [(1, true, true, true)] ∧
    Ex.qWire.take 4 = [12, 2, 97, 98] ∧ Ex.qWire.length > 5 ∧
    (s1 3).bridges.map (fun p => (p.2.eager, p.2.put)) = [(false, [])] ∧
    (s1 4).bridges.map (fun p => (p.2.eager, p.2.put, readOf p.2.got)) = [(false, [], [12, 2, 97])] ∧
    (s1 6).bridges.map (fun p => (p.2.eager, p.2.put == Ex.qAnswer, p.2.put.take 4)) = [(false, true, [12, 2, 97, 98])] := by
  decide +kernel

/-- Node 1 is pinged on a stream and acknowledges with the number of the ping; a ping for another node gets no answer. The
answer to a join is the push/pull the endpoint handed out. -/
example :
    let unit := fun m => match encodeTyped Ex.env.CI Ex.env.CA m with
      | .ok b => [12, 2, 97, 98] ++ encodeVarint b.length ++ b
      | .error _ => []
    let ping := fun k => unit (.ping { seq := 7, source := { id := 0, addr := 100 }, target := { id := k, addr := 101 } })
    let s1 := fun k => Ex.q1.run Ex.cfg1 Ex.env Ex.QX0 Ex.T0 (Ex.qAcceptOps.take 3 ++
      [.udp 100 (0x40 :: 1 :: 2 :: 0 :: ping k) 7, .udp 100 [0x40, 1, 3, 0] 8])
    let s := Ex.q1.run Ex.cfg1 Ex.env Ex.QX0 Ex.T0 Ex.qAcceptOps
    (ping 1).length > 10 ∧
    ((s1 1).gone ++ (s1 1).bridges.map Prod.snd).map (fun b => (b.eager, b.put == unit (.ack 7 []))) = [(false, true)] ∧
    ((s1 2).gone ++ (s1 2).bridges.map Prod.snd).map (fun b => (b.eager, b.put)) = [(false, [])] ∧
    (match s.calls.reverse with
     | (some 1, .streamEvent (.payload ev) t) :: before =>
       match (Ex.e1.run Ex.cfg1 Ex.env (before.reverse.map Prod.snd)).step Ex.cfg1 Ex.env (.streamEvent (.payload ev) t) with
       | (_, .command (some (.sendResponse p))) => Ex.qAnswer == unit (.pushPull p)
       | _ => false
     | _ => false) = true := by decide +kernel

end Verif.Props
