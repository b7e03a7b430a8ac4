import Verif.Model.Endpoint
/-
A cluster: any number of nodes, each running the endpoint of Model/Endpoint.lean, over a network.

What the drivers do between two endpoints is modelled only as far as the bytes go: they encode what an endpoint hands
out (`encode_outgoing`, `encode_outgoing_compound`, codec/mod.rs:203-231; the bytes of a stream request are encoded by
the endpoint itself) and they decode what arrives (`parse_messages`, codec/mod.rs:312-349) before they call the
receiving endpoint. Labels, compression, encryption and the stream framing are left out: C05-C12 show that they give
back the bytes they were given. The network may lose, delay, duplicate, reorder and misdirect what was sent, under any
source address; it does not make up membership claims. Everything else that can reach a node (acks, nacks, pings,
application data, times, dial outcomes) is unconstrained.
-/
namespace Verif.Cluster
open Verif Ep
variable {I A : Type}

/-- One running node: its configuration, what it consults and its state. Model only, no counterpart in the code:
several endpoints (endpoint/mod.rs) over an adversarial network. -/
structure Proc (I A : Type) where
  cfg : Cfg I A
  env : Env I A
  ep : Ep I A

/-- The running nodes, by id, and all the bytes handed to the network so far. Model only, no counterpart in the
code: several endpoints (endpoint/mod.rs) over an adversarial network. -/
structure Sys (I A : Type) where
  proc : I → Option (Proc I A)
  wire : List Bytes

/-- No node, nothing sent. Model only, no counterpart in the code: several endpoints (endpoint/mod.rs) over an
adversarial network. -/
def empty : Sys I A := { proc := fun _ => none, wire := [] }

/-- What happens in a cluster: a node starts or restarts, a node stops without a word, a node receives a call.
Model only, no counterpart in the code: several endpoints (endpoint/mod.rs) over an adversarial network. -/
inductive Action (I A : Type) where
  | start (cfg : Cfg I A) (env : Env I A) (now : Nat)
  | crash (i : I)
  | call (i : I) (op : Op I A)

variable (CI : DataCodec I) (CA : DataCodec A)

/-- The bytes of one message, codec/mod.rs:203-210; a message that cannot be encoded is dropped by the driver. -/
def wireOf (m : Message I A) : List Bytes := (encodeTyped CI CA m).toOption.toList

/-- The bytes of a datagram, codec/mod.rs:203-231. -/
def datagramOf : Transmit I A → List Bytes
  | .packet _ m => wireOf CI CA m
  | .compound _ ms => (encodeTypedCompound CI CA ms).toOption.toList

/-- The bytes handed to the network when a call returns: a datagram (`poll_transmit`), the opening bytes of a
dialled stream (`dial_succeeded`), the response to a push/pull (`StreamCommand::SendResponse`), gossip drained
by the driver (`drain_broadcasts`). Model only, no counterpart in the code: several endpoints (endpoint/mod.rs)
over an adversarial network. -/
def emits : Out I A → List Bytes
  | .transmit (some t) => datagramOf CI CA t
  | .stream (some s) => s.outputBuf
  | .command (some (.sendResponse pp)) => wireOf CI CA (.pushPull pp)
  | .messages l => l.flatMap (wireOf CI CA)
  | _ => []

variable [DecidableEq I] [DecidableEq A]

/-- One action. A node that fails to start (`try_new_at` returns an error) is not running. Model only, no
counterpart in the code: several endpoints (endpoint/mod.rs) over an adversarial network. -/
def act (c : Sys I A) : Action I A → Sys I A
  | .start cfg env now =>
    match tryNew cfg env now with
    | .error _ => c
    | .ok e => { c with proc := fun j => if j = cfg.localId then some { cfg, env, ep := e } else c.proc j }
  | .crash i => { c with proc := fun j => if j = i then none else c.proc j }
  | .call i op =>
    match c.proc i with
    | none => c
    | some P =>
      { proc := fun j => if j = i then some { P with ep := (P.ep.step P.cfg P.env op).1 } else c.proc j
        wire := c.wire ++ emits CI CA (P.ep.step P.cfg P.env op).2 }

/-- A whole history. Model only, no counterpart in the code: several endpoints (endpoint/mod.rs) over an
adversarial network. -/
def run (acts : List (Action I A)) : Sys I A := acts.foldl (act CI CA) empty

end Verif.Cluster
