import Verif.Model.Engine
import Verif.Spec.Driver
import Verif.Spec.Transform
/-
Specification vocabulary for the embedded engine: where its sockets are, what a socket goes through, and what was
read and written for an exchange.
-/
namespace Verif.Spec
variable {I A C S : Type}

/-- Every handle the engine holds, wherever it is: in the pool, listening, serving an exchange, or winding down. -/
def sockets (g : Engine I A C S) : List C :=
  g.pool ++ g.listener.toList ++ g.conns.filterMap (fun e => e.2.socket) ++ g.closing.map Prod.fst

/-- The handle an act is about. -/
def handleOf : Act A C → Option C
  | .listen c => some c
  | .accept _ c _ => some c
  | .connect _ c _ _ => some c
  | .read _ c _ => some c
  | .eof _ c => some c
  | .write _ c _ => some c
  | .fin _ c => some c
  | .abort c => some c
  | .gone c => some c
  | .free c => some c
  | .lost .. => none
  | .datagram .. => none

/-- What a socket is used for: nothing; waiting for a peer; serving exchange `x`, with its sending half closed or not;
an attempt to connect that failed; nothing any more, until it is put back. -/
inductive Use where
  | idle
  | listening
  | serving (x : Nat) (shut : Bool)
  | failed
  | spent
  deriving DecidableEq, Repr

/-- What may be done with a socket, and what it is used for afterwards. A socket serves one exchange at a time and is
read and written for that exchange only; nothing is written once its half was closed, which happens once; and it is
put back only after it was reset or found closed. -/
def Use.next : Use → Act A C → Option Use
  | .idle, .listen _ => some .listening
  | .idle, .connect x _ _ true => some (.serving x false)
  | .idle, .connect _ _ _ false => some .failed
  | .idle, .abort _ => some .spent
  | .failed, .abort _ => some .spent
  | .listening, .accept x _ _ => some (.serving x false)
  | .listening, .abort _ => some .spent
  | .serving x s, .read y _ _ => if y = x then some (.serving x s) else none
  | .serving x s, .eof y _ => if y = x then some (.serving x s) else none
  | .serving x false, .write y _ _ => if y = x then some (.serving x false) else none
  | .serving x false, .fin y _ => if y = x then some (.serving x true) else none
  | .serving _ _, .abort _ => some .spent
  | .serving _ _, .gone _ => some .spent
  | .spent, .free _ => some .idle
  | _, _ => none

/-- What a socket that was used for `u` is used for after the acts of a log; `none` if one of them was out of place. -/
def useAfter [DecidableEq C] (c : C) (u : Use) (log : List (S × Act A C)) : Option Use :=
  log.foldl (fun o e => if handleOf e.2 = some c then o.bind (fun u => u.next e.2) else o) (some u)

/-- The exchange an act is about. -/
def exchangeOf : Act A C → Option Nat
  | .accept x _ _ => some x
  | .connect x _ _ _ => some x
  | .read x _ _ => some x
  | .eof x _ => some x
  | .write x _ _ => some x
  | .fin x _ => some x
  | .lost x _ => some x
  | _ => none

/-- The bytes written for an exchange. -/
def bytesWritten (x : Nat) : List (S × Act A C) → Bytes
  | [] => []
  | (_, .write y _ b) :: l => if y = x then b ++ bytesWritten x l else bytesWritten x l
  | _ :: l => bytesWritten x l

/-- What was read for an exchange: pieces of bytes, and the end of the stream. -/
def inputRead (x : Nat) : List (S × Act A C) → List (Bytes × Bool)
  | [] => []
  | (_, .read y _ b) :: l => if y = x then (b, false) :: inputRead x l else inputRead x l
  | (_, .eof y _) :: l => if y = x then ([], true) :: inputRead x l else inputRead x l
  | _ :: l => inputRead x l

/-- What the coordinator was given as input of an exchange. -/
def inputGiven (x : Nat) : List (Coord.XOp I A × Coord.XOut I A) → List (Bytes × Bool)
  | [] => []
  | (.data y b eof _, _) :: l => if y = x then (b, eof) :: inputGiven x l else inputGiven x l
  | _ :: l => inputGiven x l

/-- What the coordinator handed to the engine for an exchange. -/
def handedTo (x : Nat) (hist : List (Coord.XOp I A × Coord.XOut I A)) : List (XEmit A) := handed x (hist.map Prod.snd)

/-- What the stack answered when the engine decided on an act, and what the rules of the engine require of it: a socket
is taken into use only when it is ready; only a peer that is not blocked is accepted; only a peer that is routable and
not blocked is dialled or sent a datagram; a half is closed only when the socket has nothing left to send; a socket is
taken for closed only if it is; and what was read and written is what the stack says. -/
def Warranted (E : EEnv S C A) : S × Act A C → Prop
  | (s, .listen c) => E.io.reuseReady s c = true
  | (s, .accept _ c peer) => E.io.acceptedPeer s c = some peer ∧ E.blocked peer = false
  | (s, .connect x c peer ok) => E.io.reuseReady s c = true ∧ E.blocked peer = false ∧ E.routable peer = true ∧
      (E.io.connect s c peer (49152 + x % 16384)).2 = ok
  | (s, .read _ c b) => b = (E.io.recv s c).2 ∧ b ≠ []
  | (s, .eof _ c) => E.io.recvFinished s c = true
  | (s, .write _ c b) => ∃ piece : Bytes, b = piece.take (E.io.send s c piece).2
  | (s, .fin _ c) => E.io.sendQueue s c = 0
  | (s, .gone c) => E.io.isOpen s c = false
  | (_, .datagram dst _) => E.blocked dst = false ∧ E.routable dst = true
  | _ => True

/-- How one call of the coordinator changes the id owed to exchange `x`: a request to open its connection sets it, polling
its completion clears it. -/
def owedStep (x : Nat) (o : Option Nat) (e : Coord.XOp I A × Coord.XOut I A) : Option Nat :=
  match e.2 with
  | .action (some (.connect y _ sid)) => if y = x then some sid else o
  | .event (some (.external (some r))) => if r.exchange = x then none else o
  | _ => o

/-- The id to be told when the completion of exchange `x` is polled: that of the last request to open its connection, if
no completion of it was polled since. -/
def owed (x : Nat) (hist : List (Coord.XOp I A × Coord.XOut I A)) : Option Nat := hist.foldl (owedStep x) none

/-- Bytes that are a frame sealed under the primary key of a keyring: the tag, the cipher, a nonce, and what the cipher
makes of some plaintext. -/
def SealedUnder (B : Backends) (r : Keyring) (w : Bytes) : Prop :=
  ∃ nonce plain, w = 13 :: cipherByte r.primary ::
    (nonce ++ B.aeadSeal r.primary nonce plain [13, cipherByte r.primary])

/-- The keyrings an engine is ever told to use: the one it is made with, and those set later. -/
def Configured (ring : Option Keyring) (ops : List (Engine.EOp I A C S)) (r : Option Keyring) : Prop :=
  r = ring ∨ .setEncryption r ∈ ops

/-- The instants the engine waits for: those of its coordinator, of the sockets that wind down, and of the connections
that drain. -/
def deadlines [DecidableEq I] [DecidableEq A] (g : Engine I A C S) : List Nat :=
  g.coord.pollTimeout.toList ++ g.closing.map Prod.snd ++ g.conns.filterMap (fun e => e.2.closeDeadline)

/-- The members asked to let the node join, in order: the join exchanges the coordinator was told to start. -/
def seedsAsked (hist : List (Coord.XOp I A × Coord.XOut I A)) : List A :=
  hist.filterMap (fun e => match e.1 with | .startPushPull seed .join _ => some seed | _ => none)

/-- The seeds given to `join` that can be reached at all. -/
def seedsGiven (routable : A → Bool) (ops : List (Engine.EOp I A C S)) : List A :=
  ops.flatMap (fun op => match op with | .join seeds => seeds.filter routable | _ => [])

/-- The packets taken from the endpoint to be sent, in order. -/
def packetsTaken (hist : List (Coord.XOp I A × Coord.XOut I A)) : List (Transmit I A) :=
  hist.filterMap (fun e => match e with | (.direct .pollTransmit, .endpoint (.transmit (some t))) => some t | _ => none)

/-- The datagrams sent, in order. -/
def datagramsSent (log : List (S × Act A C)) : List (A × Bytes) :=
  log.filterMap (fun e => match e.2 with | .datagram dst b => some (dst, b) | _ => none)

/-- What becomes of a packet under the settings `cmp` and `ring`: if it can be encoded, and its destination is routable
and not blocked, it is sent there, compressed, checksummed and sealed with the `k`-th nonce drawn; otherwise nothing
is sent. -/
def Fate (env : Env I A) (X : XCfg) (T : TEnv) (E : EEnv S C A) (cmp : CmpOptions) (ring : Option Keyring)
    (t : Transmit I A) (o : Option (Nat × A × Bytes)) : Prop :=
  match Engine.encodeTransmit env X t with
  | none => o = none
  | some (dst, b) =>
    if E.routable dst && !E.blocked dst then
      ∃ k w, o = some (k, dst, w) ∧ sendGossip T.B ⟨cmp, E.checksum, ring⟩ (E.nonce k) b = .ok w
    else o = none

/-- The gossip checksum, if any, is one the program can compute. -/
def ChecksumKnown (E : EEnv S C A) : Prop := ∀ b, E.checksum ≠ some (.unknown b)

/-- How one call changes whether the node is a member, its compression and its keyring: settings are taken while it is
a member, and `leave` ends the membership. -/
def settle (s : Bool × CmpOptions × Option Keyring) (op : Engine.EOp I A C S) : Bool × CmpOptions × Option Keyring :=
  match s.1, op with
  | true, .setCompression cmp => (true, cmp, s.2.2)
  | true, .setEncryption ring => (true, s.2.1, ring)
  | _, .leave _ => (false, s.2)
  | _, _ => s

/-- The same after a history. -/
def settings (cmp : CmpOptions) (ring : Option Keyring) (ops : List (Engine.EOp I A C S)) :
    Bool × CmpOptions × Option Keyring := ops.foldl settle (true, cmp, ring)

end Verif.Spec
