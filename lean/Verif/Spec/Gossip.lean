import Verif.Spec.Probe
import Verif.Spec.Queue
/-
Specification vocabulary for gossip rounds and the broadcasts of the application.
-/
namespace Verif.Spec
open Verif Ep
variable {I A : Type} [DecidableEq I] [DecidableEq A]

omit [DecidableEq A] in
/-- The addresses of the members gossip may go to: all but the local node, as long as they are alive, suspected, or
have been dead for at most the configured time. -/
def gossipPeers (cfg : Cfg I A) (e : Ep I A) (now : Nat) : List A :=
  (e.core.members.filter (fun m => m.id ≠ cfg.localId && (m.state = .alive || m.state = .suspect ||
    (m.state = .dead && now - m.stateChange ≤ cfg.gossipToTheDead)))).map (fun m => m.server.addr)

omit [DecidableEq I] [DecidableEq A] in
/-- The datagram that carries the given messages: a plain one for a single message, a compound one for several, none
for no message. -/
def carrying (dst : A) : List (Message I A) → List (Transmit I A)
  | [] => []
  | [m] => [.packet dst m]
  | ms => [.compound dst ms]

omit [DecidableEq I] [DecidableEq A] in
/-- A datagram of the failure detector: a ping, a ping request to a relay, a nack, or the claim that the probed member
is suspected, alone or with the ping. -/
def ProbeTraffic (t : Transmit I A) : Prop :=
  (∃ dst m, t = .packet dst m ∧
    ((∃ p, m = .ping p) ∨ (∃ p, m = .indirectPing p) ∨ (∃ s, m = .nack s) ∨ ∃ s, m = .suspect s)) ∨
  ∃ dst p s, t = .compound dst [.ping p, .suspect s]

/-- `sent` was taken from the waiting broadcasts: afterwards those that have been sent `limit` times are gone, and the
others count one transmission more. -/
def Taken {B : Type} (limit : Nat) (before sent after : List (LB B)) : Prop :=
  ∃ rest, before.Perm (sent ++ rest) ∧
    after.Perm ((sent.filter (fun x => x.transmits + 1 < limit)).map
      (fun x => { x with transmits := x.transmits + 1 }) ++ rest)

omit [DecidableEq I] [DecidableEq A] in
/-- Every waiting claim is kept or replaced by a new one about the same node. -/
def Keeps (a b : List (LB (I × Message I A))) : Prop :=
  ∀ x ∈ a, x ∈ b ∨ ∃ y ∈ b, y.broadcast.1 = x.broadcast.1 ∧ y.transmits = 0

/-- The bytes of a compound datagram that its parts may use. -/
def room (cfg : Cfg I A) : Nat := cfg.gossipMtu - (COMPOUND_TAG_LEN + COMPOUND_MAX_COUNT_PREFIX_LEN)

/-- The claims a round sends out of those that wait, and the bytes left for the application: the claim to send first on
its own if it fits no compound datagram, and otherwise as many as fit one. -/
inductive ClaimsChosen (cfg : Cfg I A) (waiting : List (LB (I × Message I A))) : List (LB (I × Message I A)) → Nat → Prop
  | lone (x : LB (I × Message I A)) (hx : x ∈ waiting) (hfit : x.msgLen ≤ cfg.gossipMtu)
      (hfirst : ∀ y ∈ waiting, y ≠ x → y.msgLen ≤ cfg.gossipMtu → Preferred x y)
      (hlong : room cfg < x.msgLen + COMPOUND_MAX_PART_PREFIX_LEN) : ClaimsChosen cfg waiting [x] 0
  | many (sent : List (LB (I × Message I A)))
      (hshort : ∀ x ∈ waiting, x.msgLen ≤ cfg.gossipMtu →
        (∀ y ∈ waiting, y ≠ x → y.msgLen ≤ cfg.gossipMtu → Preferred x y) →
        x.msgLen + COMPOUND_MAX_PART_PREFIX_LEN ≤ room cfg)
      (h : Greedy COMPOUND_MAX_PART_PREFIX_LEN (room cfg) waiting 0 sent) :
    ClaimsChosen cfg waiting sent (room cfg - charge COMPOUND_MAX_PART_PREFIX_LEN sent)

/-- The application's broadcasts a round sends out of those that wait in each rank, in `left` bytes: each rank in turn
gets what the ranks before it left over, and no rank is passed over while there is space. -/
structure UsersChosen (left limit : Nat) (waiting sent after : List (List (LB Bytes))) : Prop where
  len : sent.length ≤ waiting.length
  same : after.length = waiting.length
  greedy : ∀ (i : Nat) s, sent[i]? = some s → ∃ t, waiting[i]? = some t ∧
    Greedy USER_PART_OVERHEAD left t (charge USER_PART_OVERHEAD (sent.take i).flatten) s
  full : sent.length < waiting.length → charge USER_PART_OVERHEAD sent.flatten = left
  taken : ∀ (i : Nat) t, waiting[i]? = some t → ∃ t', after[i]? = some t' ∧ Taken limit t ((sent[i]?).getD []) t'

/-- The waiting broadcasts of the application, rank by rank. -/
def userQueues (e : Ep I A) : List (List (LB Bytes)) := e.user.tiers.map (fun t => t.q)

omit [DecidableEq I] [DecidableEq A] in
/-- The application data a call passes in to be sent in datagrams. -/
def appData : Ep.Op I A → List Bytes
  | .queueUser _ b => [b]
  | .sendUserPacket _ b => [b]
  | .sendUserPackets _ bs => bs
  | .leave _ (some b) => [b]
  | _ => []

omit [DecidableEq I] [DecidableEq A] in
/-- The messages in a datagram. -/
def messagesIn : Transmit I A → List (Message I A)
  | .packet _ m => [m]
  | .compound _ ms => ms

end Verif.Spec
