import Verif.Proof.TlsRun
import Verif.Props.Tls
import Verif.Example.Coord
/-
Reliable exchanges over TLS.

A history of an exchange is any sequence of the calls the coordinator makes on it: ciphertext from the transport, the
installation of the endpoint's stream after the handshake, timers, drains, settings, failures, and the two calls that
hand the content of the exchange to the endpoint. `calls` are the calls made to the endpoint on the way, and
`records.passed` is the plaintext rustls has handed over.
-/
namespace Verif.Props
open Verif Spec
variable {I A : Type} {R : Rustls} [DecidableEq I] [DecidableEq A] {cfg : Cfg I A} {env : Env I A} {X : XCfg} {T : TEnv}

/-- The endpoint opened this stream. -/
def OpenedBy (cfg : Cfg I A) (env : Env I A) (s : Stream I A) : Prop :=
  ∃ (e : Ep I A) (op : Ep.Op I A), (e.step cfg env op).2 = .stream (some s)

/-- A new exchange of this node over TLS, dialled or accepted. -/
def NewExchange (X : XCfg) (max : Nat) (b : TBridge I A R) : Prop :=
  ∃ conn d cmp, b = .new (.newDialer X.label X.skipLabel conn) d cmp max ∨
    b = .new (.newAcceptor X.label X.skipLabel conn) d cmp max

theorem tls_start (hX : ∀ l, X.label = some l → l.length ≤ 253) {opened : Stream I A → Prop} {max : Nat}
    {b : TBridge I A R} (h : NewExchange X max b) : TBridge.TInv env X T opened max false b := by
  obtain ⟨conn, d, cmp, rfl | rfl⟩ := h
  · exact .newDialer hX conn d cmp
  · exact .newAcceptor conn d cmp

/-- C109. The endpoint is given the content of an exchange over TLS only after the peer ended its side, by the close of
TLS or of the connection, and only if the plaintext handed over by rustls until some moment is: the label header of
this cluster (if it has a label), and behind it a whole number of units without a further layer of encryption that
together carry one message which answers what the exchange was opened for. (With `ops` cut off behind the call that
commits, this speaks of the moment of the commit.) -/
theorem C109_authorised (hX : ∀ l, X.label = some l → l.length ≤ 253) {max : Nat} {b0 : TBridge I A R}
    (h0 : NewExchange X max b0) (ops : List (TBridge.TOp I A)) (hm : ∀ s now, .mint s now ∈ ops → OpenedBy cfg env s)
    {ev : PayloadEvent I A} {t : Nat} (h : .streamEvent (.payload ev) t ∈ b0.calls cfg env T ops) :
    ((∃ now, .feed [] now ∈ ops) ∨ (b0.run cfg env T ops).records.inner.peerClosed = true) ∧
    ∃ W body plain s now, W <+: (b0.run cfg env T ops).records.passed ∧ Behind X.label X.skipLabel W body ∧
      Units T.B none max body plain ∧ .mint s now ∈ ops ∧ Delivers env.CI env.CA s plain ev := by
  obtain ⟨_, _, _, h4⟩ := (tls_start (env := env) (T := T) (opened := fun s => ∃ now, .mint s now ∈ ops) hX h0).run
    (cfg := cfg) hX ops (fun s now hs => ⟨⟨now, hs⟩, by
      obtain ⟨e, op, ho⟩ := hm s now hs
      exact Coord.fed_opened (cfg := cfg) (env := env) ho⟩)
  obtain ⟨W, hW, he, body, plain, s, hb, hu, ⟨now, hs⟩, hd⟩ := h4 ev t h
  refine ⟨?_, W, body, plain, s, now, hW, hb, hu, hs, hd⟩
  rw [Bool.or_eq_true, Bool.false_or, List.any_eq_true] at he
  refine he.imp ?_ id
  rintro ⟨op, ho, hop⟩
  unfold TBridge.TOp.isEof at hop
  split at hop
  · next now => exact ⟨now, ho⟩
  · cases hop

/-! Node 1 accepts a connection from node 0 over a toy rustls. -/
/-- The toy rustls with more room: sixteen bytes each way. -/
def toy16 : Rustls where
  C := ToyConn
  readTls c bs :=
    if c.hs = false ∧ c.plain.length ≥ 16 then (c, none) else ({ c with inp := bs.take 1 }, some (bs.take 1).length)
  process c :=
    if c.inp = [] then (c, some c.gone)
    else if c.hs then
      if c.inp = [22] then ({ c with hs := false, inp := [] }, some c.gone) else (c, none)
    else if c.inp = [255] then ({ c with inp := [], gone := true }, some true)
    else ({ c with inp := [], plain := c.plain ++ c.inp }, some c.gone)
  handshaking c := c.hs
  drain c := ({ c with plain := [] }, c.plain)
  write c bs := ({ c with out := c.out ++ bs.take (16 - c.out.length) }, (bs.take (16 - c.out.length)).length)
  writeTls c := ({ c with out := [] }, c.out)
  closeNotify c := { c with out := c.out ++ [255] }
  setLimit c _ := c
  read_le c bs n h := by
    split at h
    · cases h
    · simp at h; omega
  write_le c bs := by simp only [List.length_take]; omega
  drain_drain c := rfl

/-- What node 0 sends, without a keyring. -/
def tlsWire : Bytes := (Ex.c0.run Ex.cfg Ex.env Ex.X0 Ex.T0 [.startPushPull 101 .join 5]).out.flatMap (fun e => e.2.2)

/-- Node 1's side of the exchange. -/
def tlsB0 : TBridge Nat Nat toy16 := .new (.newAcceptor Ex.X0.label Ex.X0.skipLabel {}) 100 Ex.cmp0 Ex.cfg1.maxStreamFrameSize

/-- The stream of node 1's endpoint. -/
def tlsStream : Option (Stream Nat Nat) :=
  match (Ex.e1.step Ex.cfg1 Ex.env (.acceptStream 100 6)).2 with
  | .stream s => s
  | _ => none

/-- The calls: the handshake with the label and the beginning of the request, the stream, the rest of the request and
`last`, the commit. -/
def tlsOps (last : Bytes) : List (TBridge.TOp Nat Nat) :=
  [.feed (22 :: tlsWire.take 9) 6] ++ (tlsStream.map (TBridge.TOp.mint · 6)).toList ++
    [.feed (tlsWire.drop 9 ++ last) 8, .replay 8, .commit Ex.cmp0 Ex.e1 8, .pump 9, .transmit]

/-- How many payloads a sequence of calls to the endpoint commits. -/
def payloads (l : List (Ep.Op Nat Nat)) : Nat :=
  (l.filter (fun op => match op with | .streamEvent (.payload _) _ => true | _ => false)).length

/-- With the close of TLS the request is committed and answered; without it nothing is committed, however complete the
request is. -/
example : tlsStream.isSome = true ∧ tlsWire.length = 28 ∧
    payloads (tlsB0.calls Ex.cfg1 Ex.env Ex.T0 (tlsOps [255])) = 1 ∧
    payloads (tlsB0.calls Ex.cfg1 Ex.env Ex.T0 (tlsOps [])) = 0 ∧
    (tlsB0.run Ex.cfg1 Ex.env Ex.T0 (tlsOps [])).records.passed = tlsWire := by decide +kernel

end Verif.Props
