import Verif.Model.Coord
/-
Specification vocabulary for what the coordinator hands to the driver of its connections.
-/
namespace Verif

/-- What the driver is handed for one exchange: the request to open its connection, bytes to write on it, or the request
to take it down. -/
inductive XEmit (A : Type) where
  | connect (peer : A) (sid : Nat)
  | bytes (b : Bytes)
  | down (t : Teardown)
  deriving DecidableEq, Repr

namespace Coord

/-- What the result of a call hands to the driver for exchange `x`. -/
def emitOf {I A : Type} (x : Nat) : XOut I A → List (XEmit A)
  | .bytes (some (y, _, b)) => if y = x then [.bytes b] else []
  | .action (some (.connect y peer sid)) => if y = x then [.connect peer sid] else []
  | .action (some (.down t y)) => if y = x then [.down t] else []
  | _ => []

end Coord

namespace Spec
variable {I A : Type}

/-- What the driver was handed for exchange `x`, in order. -/
def handed (x : Nat) (outs : List (Coord.XOut I A)) : List (XEmit A) := outs.flatMap (Coord.emitOf x)

/-- The bytes the driver was given to write. -/
def written : List (XEmit A) → Bytes
  | [] => []
  | .bytes b :: l => b ++ written l
  | _ :: l => written l

/-- The requests to take the connection down. -/
def downs : List (XEmit A) → List Teardown
  | [] => []
  | .down t :: l => t :: downs l
  | _ :: l => downs l

/-- The number of requests to open the connection. -/
def dialled : List (XEmit A) → Nat
  | [] => 0
  | .connect .. :: l => dialled l + 1
  | _ :: l => dialled l

/-- A well-formed course of one connection: at most one request to open it, and bytes; then at most one half-close,
after which nothing is written; then a close, or an abort, which may be repeated once. -/
def Orderly (t : List (XEmit A)) : Prop :=
  ∃ pre half full, t = pre ++ (half ++ full).map .down ∧ downs pre = [] ∧ dialled pre ≤ 1 ∧
    (half = [] ∨ half = [.shutdown]) ∧ (full = [] ∨ full = [.close] ∨ full = [.abort] ∨ full = [.abort, .abort])

/-- The label header a connection starts with. -/
def header (label : Option Bytes) : Bytes :=
  match label with
  | none => []
  | some [] => []
  | some l => encodeLabelPrefix l

/-- The messages an exchange may carry: the request an endpoint opened it for and, if the peer opened it, an endpoint's
answer to what arrived, and the acknowledgement of a ping. -/
inductive Spoken {I A : Type} [DecidableEq I] [DecidableEq A] (cfg : Cfg I A) (env : Env I A) (outbound : Bool) : Bytes → Prop
  | request {e : Ep I A} {op : Ep.Op I A} {s : Stream I A} {m : Bytes} : (e.step cfg env op).2 = .stream (some s) →
      s.outputBuf = [m] → Spoken cfg env outbound m
  | answer {e e' : Ep I A} {ev : PayloadEvent I A} {now : Nat} {p : PushPull I A} :
      e.handleStreamEvent cfg env (.payload ev) now = (e', some (.sendResponse p)) →
      outbound = false → Spoken cfg env outbound (Ep.encodeBytes env (.pushPull p))
  | ack {seq : Nat} {m : Bytes} : encodeTyped env.CI env.CA (.ack seq []) = .ok m → outbound = false → Spoken cfg env outbound m

/-- One unit of the reliable path that carries one of the messages `M`, sealed under the keyring: the length of a frame,
and the frame. The message is compressed first, as some setting has it. -/
def SealedUnit (B : Backends) (M : Bytes → Prop) (ring : Option Keyring) (u : Bytes) : Prop :=
  ∃ cmp m nonce frame, M m ∧ encryptPayload B ring nonce (compressPayload B cmp m) = .ok frame ∧
    u = encodeVarint (frame.length % 2 ^ 32) ++ frame

end Spec
end Verif
