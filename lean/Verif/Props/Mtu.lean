import Verif.Proof.Mtu
import Verif.Example.Endpoint
/-
C43: datagrams fit the MTU.
-/
namespace Verif.Props
open Verif Ep Spec
variable {I A : Type} [DecidableEq I] [DecidableEq A]
variable {cfg : Cfg I A} {env : Env I A}

/-- C43. Every datagram a node ever queues (gossip, probes, relayed pings, acks and nacks, application packets,
farewells) can be encoded and is within the MTU. The only exception is a relayed ack whose payload another node chose,
if that payload is longer than the node would accept as its own. -/
theorem C43_fits (hinc : cfg.initialIncarnation < 2 ^ 32) {now : Nat} {e0 : Ep I A} (h0 : tryNew cfg env now = .ok e0)
    (ops : List (Op I A)) (hq : ∀ op ∈ ops, SeqU32 op) :
    ∀ t ∈ (run cfg env e0 ops).net.transmits, Fits cfg env t ∨ ForeignPayload cfg env ops t :=
  (run_size hinc h0 ops hq).out

/-- C43. So is every datagram handed to the transport. -/
theorem C43_polled (hinc : cfg.initialIncarnation < 2 ^ 32) {now : Nat} {e0 : Ep I A} (h0 : tryNew cfg env now = .ok e0)
    (ops : List (Op I A)) (hq : ∀ op ∈ ops, SeqU32 op) {t : Transmit I A}
    (ht : ((run cfg env e0 ops).step cfg env .pollTransmit).2 = .transmit (some t)) :
    Fits cfg env t ∨ ForeignPayload cfg env ops t := by
  refine C43_fits hinc h0 ops hq t ?_
  simp only [step] at ht
  unfold pollTransmit at ht
  split at ht
  · cases ht
  · rename_i t' rest h
    cases ht
    rw [h]; simp

/-- C43. Gossip datagrams and farewells in particular: whatever is sent by a call other than the delivery of an ack fits. -/
theorem C43_call (hinc : cfg.initialIncarnation < 2 ^ 32) {now : Nat} {e0 : Ep I A} (h0 : tryNew cfg env now = .ok e0)
    (ops : List (Op I A)) (hq : ∀ op ∈ ops, SeqU32 op) (hack : ∀ src s payload t, Op.packet src (.ack s payload) t ∉ ops) :
    ∀ t ∈ (run cfg env e0 ops).net.transmits, Fits cfg env t := by
  intro t ht
  rcases C43_fits hinc h0 ops hq t ht with h | ⟨_, _, src, s', payload, n, _, h, _⟩
  · exact h
  · exact absurd h (hack src s' payload n)

/-- Node 2 asks to relay a ping to node 3, whose ack carries 1400 bytes. -/
def hBigAck : List (Op Nat Nat) := Ex.hRelay ++ [.packet 103 (.ack 1 (List.replicate 1400 0)) (60 * MS)]

/-- C43. The exception is real: the payload of a relayed ack is passed on whatever its length. -/
theorem C43_relayed_witness : (∀ op ∈ hBigAck, SeqU32 op) ∧
    ∃ t ∈ (Ex.after hBigAck).net.transmits, ¬ Fits Ex.cfg Ex.env t := by
  refine ⟨?_, .packet 102 (.ack 77 (List.replicate 1400 0)), ?_, ?_⟩
  · decide +kernel
  · have h : ((Ex.after hBigAck).net.transmits.any (fun t => match t with
        | .packet 102 (.ack 77 p) => decide (p = List.replicate 1400 0)
        | _ => false)) = true := by decide +kernel
    obtain ⟨t, ht, hp⟩ := List.any_eq_true.1 h
    split at hp
    · simp only [decide_eq_true_eq] at hp; subst hp; exact ht
    · cases hp
  · rintro ⟨b, hb, hl⟩
    have hw := wireLen_ok (CI := Ex.env.CI) (CA := Ex.env.CA)
      (m := (.ack 77 (List.replicate 1400 0) : Message Nat Nat)) hb
    have : wireLen Ex.env.CI Ex.env.CA (.ack 77 (List.replicate 1400 0) : Message Nat Nat) = 1408 := by decide +kernel
    have hm : Ex.cfg.gossipMtu = 1400 := rfl
    omega

/-- A node with a full queue: members, an application broadcast close to the limit, a due gossip round, a leave. -/
def hMtu : List (Op Nat Nat) :=
  [.startScheduling (10 * MS), .packet 101 (Ex.alive 1 5 (List.replicate 400 1)) (20 * MS),
   .packet 102 (Ex.alive 2 5 (List.replicate 500 1)) (30 * MS), .queueUser 0 (List.replicate 1300 9),
   .queueUser 0 (List.replicate 100 9), .timeout (900 * MS), .timeout (1800 * MS), .leave (1900 * MS) (some [1, 2, 3])]

example : (∀ op ∈ hMtu, SeqU32 op) ∧ Ex.cfg.initialIncarnation < 2 ^ 32 ∧
    ((Ex.after hMtu).net.transmits.map (fun t => match onWire Ex.env t with | .ok b => b.length | .error _ => 0)) =
      [1329, 1329] ∧
    ((Ex.after (hMtu.take 7)).net.transmits.map
      (fun t => match onWire Ex.env t with | .ok b => b.length | .error _ => 0)) = [20, 1071, 1071, 20, 1071, 1071] := by
  decide +kernel

end Verif.Props
