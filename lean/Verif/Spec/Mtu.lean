import Verif.Model.Endpoint
/-
The size of datagrams.
-/
namespace Verif.Spec
open Verif
variable {I A : Type}

/-- The bytes of an outgoing datagram, before the optional label and encryption: one frame, or one compound frame.
The configured MTU bounds these bytes (config/mod.rs:335-349). -/
def onWire (env : Env I A) : Transmit I A → Except CodecError Bytes
  | .packet _ m => encodeTyped env.CI env.CA m
  | .compound _ ms => encodeTypedCompound env.CI env.CA ms

/-- The datagram can be encoded and is within the MTU. -/
def Fits (cfg : Cfg I A) (env : Env I A) (t : Transmit I A) : Prop :=
  ∃ b, onWire env t = .ok b ∧ b.length ≤ cfg.gossipMtu

/-- Received pings carry sequence numbers of 32 bits, as everything decoded from the network does (and as their type
says). -/
def SeqU32 : Ep.Op I A → Prop
  | .packet _ (.ping p) _ => p.seq < 2 ^ 32
  | .packet _ (.indirectPing p) _ => p.seq < 2 ^ 32
  | _ => True

instance (op : Ep.Op I A) : Decidable (SeqU32 op) := by
  unfold SeqU32
  split <;> infer_instance

/-- The datagram forwards the payload of an ack received from another node, and that payload is longer than the node
would accept as its own ack payload. -/
def ForeignPayload (cfg : Cfg I A) (env : Env I A) (ops : List (Ep.Op I A)) (t : Transmit I A) : Prop :=
  ∃ dst s src s' payload now, t = .packet dst (.ack s payload) ∧ Ep.Op.packet src (.ack s' payload) now ∈ ops ∧
    ¬ Fits cfg env (.packet dst (.ack (2 ^ 32 - 1) payload))

end Verif.Spec
