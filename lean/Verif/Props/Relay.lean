import Verif.Proof.RelayFacts
import Verif.Example.Endpoint
/-
C39, C52: relayed pings and answers to pings.
-/
namespace Verif.Props
open Verif Ep Spec
variable {I A : Type} [DecidableEq I] [DecidableEq A]
variable {cfg : Cfg I A} {env : Env I A}

/-! ### C39: relayed pings are answered exactly once -/

/-- C39. A request is not relayed if it does not come from the address it names as its source, if the cap on relays in
progress is reached, if the same request is in progress already, or if the node has left: nothing is sent and nothing
that is waiting changes. -/
theorem C39_refused {e : Ep I A} (src : A) (p : Ping I A) (now : Nat)
    (hn : src ≠ p.source.addr ∨ cfg.maxIndirectForwards ≤ (relays e).length ∨ e.core.lifecycle ≠ .running ∨
      ∃ x ∈ relays e, x.2.replyTo = p.source.addr ∧ x.2.requesterSeq = p.seq ∧ x.2.target = p.target.addr) :
    let e' := (e.step cfg env (.packet src (.indirectPing p) now)).1
    e'.net.transmits = e.net.transmits ∧ relays e' = relays e ∧ (∀ s, pending e' s = pending e s) ∧
      e'.core = e.core := by
  intro e'
  have he : e' = (e.step cfg env (.packet src (.indirectPing p) now)).1 := rfl
  by_cases hr : e.core.lifecycle = .running
  · rw [indirect_step hr] at he
    unfold handleIndirectPing at he
    split at he
    · rw [he]; exact ⟨rfl, rfl, fun _ => rfl, rfl⟩
    · rename_i h1
      split at he
      · rw [he]; exact ⟨rfl, rfl, fun _ => rfl, rfl⟩
      · rename_i h2
        split at he
        · rw [he]; exact ⟨rfl, rfl, fun _ => rfl, rfl⟩
        · rename_i h3
          exfalso
          rcases hn with hn | hn | hn | ⟨x, hx, h4, h5, h6⟩
          · exact h1 hn
          · exact h2 hn
          · exact hn hr
          · exact h3 (List.any_eq_true.2 ⟨x, hx, by simp [h4, h5, h6]⟩)
  · rw [packet_stopped hr] at he
    rw [he]; exact ⟨rfl, rfl, fun _ => rfl, rfl⟩

/-- C39. Every other request is accepted under a fresh sequence number (as long as one is free). If the ping to the target
fits the MTU, exactly that ping is sent, and the relay waits for the target's ack for one probe timeout; if not, the
requester is sent a nack right away and nothing waits. -/
theorem C39_accepted {e : Ep I A} (h : Reachable cfg env e) (hr : e.core.lifecycle = .running) (p : Ping I A) (now : Nat)
    (hcap : (relays e).length < cfg.maxIndirectForwards)
    (hnew : ∀ x ∈ relays e, ¬ (x.2.replyTo = p.source.addr ∧ x.2.requesterSeq = p.seq ∧ x.2.target = p.target.addr))
    (hout : e.net.probes.length + e.net.forwards.length < 2 ^ 32 - 1) :
    let e' := (e.step cfg env (.packet p.source.addr (.indirectPing p) now)).1
    ∃ seq, pending e seq = none ∧ relaying e seq = none ∧ (∀ s, s ≠ seq → relaying e' s = relaying e s) ∧
      (∀ s, pending e' s = pending e s) ∧ e'.core = e.core ∧
      (let ping : Message I A := .ping { seq, source := { id := cfg.localId, addr := cfg.advertise }, target := p.target }
       if wireLen env.CI env.CA ping ≤ cfg.gossipMtu then
         relaying e' seq = some { replyTo := p.source.addr, target := p.target.addr, requesterSeq := p.seq
                                  deadline := now + cfg.probeTimeout } ∧
         e'.net.transmits = e.net.transmits ++ [.packet p.target.addr ping]
       else
         relaying e' seq = none ∧ e'.net.transmits = e.net.transmits ++ [.packet p.source.addr (.nack p.seq)]) := by
  intro e'
  obtain ⟨seq, hs⟩ := allocSeq_exists (reachable_netOk h) hout
  obtain ⟨h1, h2, h3, h4, _⟩ := allocSeq_spec hs
  have he : e' = e.handleIndirectPing cfg env p.source.addr p now := indirect_step hr _ _ _
  unfold handleIndirectPing at he
  rw [if_neg (by simp), if_neg (by have : e.net.forwards.length < _ := hcap; omega), if_neg, hs] at he
  · dsimp only at he
    refine ⟨seq, h3, h4, ?_⟩
    by_cases hfit : wireLen env.CI env.CA (.ping { seq, source := localNode cfg, target := p.target } : Message I A) ≤ cfg.gossipMtu
    · rw [if_neg (by simp [fitsMtu, hfit])] at he
      rw [he]
      refine ⟨?_, fun _ => rfl, rfl, ?_⟩
      · intro s hne
        show (e.net.forwards.insert seq _).get? s = _
        rw [Map.get?_insert, if_neg (Ne.symm hne)]; rfl
      · have hfit' := hfit
        unfold localNode at hfit'
        dsimp only
        rw [if_pos hfit']
        refine ⟨?_, rfl⟩
        show (e.net.forwards.insert seq _).get? seq = _
        rw [Map.get?_insert, if_pos rfl]
    · rw [if_pos (by simpa [fitsMtu] using hfit)] at he
      rw [he]
      refine ⟨fun _ _ => rfl, fun _ => rfl, rfl, ?_⟩
      unfold localNode at hfit
      dsimp only
      rw [if_neg hfit]
      exact ⟨h4, rfl⟩
  · intro hany
    obtain ⟨x, hx, hc⟩ := List.any_eq_true.1 hany
    exact hnew x hx (by simpa using hc)

/-- C39. The ack of the target before the deadline ends the relayed ping, is passed on to the requester under the
requester's own number and with its payload, and does nothing else. -/
theorem C39_answer {e : Ep I A} (h : Reachable cfg env e) (hr : e.core.lifecycle = .running) {seq : Nat} {f : Forward A}
    (hf : relaying e seq = some f) (payload : Bytes) {now : Nat} (hd : now < f.deadline) :
    let e' := (e.step cfg env (.packet f.target (.ack seq payload) now)).1
    relaying e' seq = none ∧ (∀ s, s ≠ seq → relaying e' s = relaying e s) ∧ (∀ s, pending e' s = pending e s) ∧
      e'.core = e.core ∧ e'.net.transmits = e.net.transmits ++ [.packet f.replyTo (.ack f.requesterSeq payload)] := by
  intro e'
  have he : e' = e.handleAck cfg env f.target seq payload now := ack_step hr _ _ _ _
  obtain ⟨a, ha, hk⟩ := (reachable_netOk h).fa _ _ hf
  have hf' : e.net.forwards.get? seq = some f := hf
  unfold handleAck at he
  rw [ha] at he
  dsimp only at he
  rw [hk] at he
  rw [if_neg (by simp [ackSourceValid, hf'])] at he
  dsimp only at he
  rw [hf'] at he
  dsimp only at he
  rw [if_neg (by omega)] at he
  rw [he]
  refine ⟨?_, ?_, fun _ => rfl, rfl, rfl⟩
  · show (e.net.forwards.erase seq).get? seq = _
    rw [Map.get?_erase, if_pos rfl]
  · intro s hne
    show (e.net.forwards.erase seq).get? s = _
    rw [Map.get?_erase, if_neg (Ne.symm hne)]; rfl

/-- C39. Answers are conserved. A call that is neither a request to relay, nor a ping, nor a leave, nor the transport
collecting a datagram, sends exactly one answer for each relayed ping it ends, to that ping's requester and under its
number, and no other ack or nack; it ends a relayed ping only because the target answered in time or because the
timers are serviced at or after the deadline; and all other relayed pings stay as they are. -/
theorem C39_exactly {e : Ep I A} (h : Reachable cfg env e) (op : Op I A) (hleave : ∀ now f, op ≠ .leave now f)
    (hpoll : op ≠ .pollTransmit) (hping : ∀ src p now, op ≠ .packet src (.ping p) now)
    (hind : ∀ src p now, op ≠ .packet src (.indirectPing p) now) :
    ∃ sent ended, (e.step cfg env op).1.net.transmits = e.net.transmits ++ sent ∧
      (relays e).Perm (ended ++ relays (e.step cfg env op).1) ∧
      sent.flatMap answersIn = ended.map (fun x => answerTo op x.2) ∧
      ∀ x ∈ ended, RelayEnds x.1 x.2 op :=
  step_relays h op hleave hpoll hping hind

/-- C39. Over any calls a relayed ping is either untouched, or some call ended it, in which its requester was answered: until
that call it was waiting unchanged, and that call was the target's ack in time or a timer service at or after the
deadline. -/
theorem C39_once {e : Ep I A} (h : Reachable cfg env e) {seq : Nat} {f : Forward A} (hf : relaying e seq = some f)
    (ops : List (Op I A)) :
    (∀ a, a <+: ops → relaying (Ep.run cfg env e a) seq = some f) ∨
    (∃ a op b sent, ops = a ++ op :: b ∧ (∀ a', a' <+: a → relaying (Ep.run cfg env e a') seq = some f) ∧
      relaying (Ep.run cfg env e (a ++ [op])) seq = none ∧ RelayEnds seq f op ∧
      (Ep.run cfg env e (a ++ [op])).net.transmits = (Ep.run cfg env e a).net.transmits ++ sent ∧
      answerTo op f ∈ sent.flatMap answersIn) := by
  induction ops using snoc_induction with
  | h0 =>
    left
    intro a ha
    rw [List.prefix_nil.1 ha]; exact hf
  | h1 ops op ih =>
    rcases ih with ih | ⟨a, op', b, sent, rfl, h1, h2, h3, h4, h5⟩
    · rcases step_relay (reachable_run h ops) op (ih ops (List.prefix_refl _)) with hk | ⟨hn, hw, l, hl, hin⟩
      · left
        intro a ha
        rcases List.prefix_concat_iff.1 ha with rfl | ha
        · rw [run_snoc]; exact hk
        · exact ih a ha
      · right
        exact ⟨ops, op, [], l, rfl, ih, by rw [run_snoc]; exact hn, hw, by rw [run_snoc]; exact hl, hin⟩
    · right
      exact ⟨a, op', b ++ [op], sent, by simp, h1, h2, h3, h4, h5⟩

/-- C39. Servicing the timers of a running node ends every relayed ping whose deadline has come, so that none is left
waiting at or past its deadline. -/
theorem C39_deadline {e : Ep I A} (h : Reachable cfg env e) (hr : e.core.lifecycle = .running) (now : Nat)
    {seq : Nat} {f : Forward A} (hf : relaying e seq = some f) :
    if now < f.deadline then relaying (e.step cfg env (.timeout now)).1 seq = some f
    else relaying (e.step cfg env (.timeout now)).1 seq = none ∧
      ∃ sent, (e.step cfg env (.timeout now)).1.net.transmits = e.net.transmits ++ sent ∧
        (f.replyTo, .nack f.requesterSeq) ∈ sent.flatMap answersIn := by
  rcases step_relay h (.timeout now) hf with hk | ⟨hn, hw, l, hl, hin⟩
  · rw [if_pos (timeout_relays h hr now hk)]; exact hk
  · cases hw with
    | expired now hd => rw [if_neg (by omega)]; exact ⟨hn, l, hl, hin⟩

/-- C39. No call changes a relayed ping that is waiting, or reuses its number: under its number the same relayed ping
waits after the call, or none. -/
theorem C39_kept {e : Ep I A} (h : Reachable cfg env e) (op : Op I A) {seq : Nat} {f : Forward A}
    (hf : relaying e seq = some f) :
    relaying (e.step cfg env op).1 seq = some f ∨
      (relaying (e.step cfg env op).1 seq = none ∧ RelayEnds seq f op) := by
  rcases step_relay h op hf with hk | ⟨hn, hw, _⟩
  · exact .inl hk
  · exact .inr ⟨hn, hw⟩

/-- C39. In every reachable state no more relays are in progress than the cap, and no request is in progress twice. -/
theorem C39_cap {e : Ep I A} (h : Reachable cfg env e) :
    (relays e).length ≤ cfg.maxIndirectForwards ∧
    ((relays e).map (fun x => (x.2.replyTo, x.2.requesterSeq, x.2.target))).Nodup := by
  have hn := reachable_netOk h
  refine ⟨hn.cap, ?_⟩
  have hnd : (relays e).Nodup := List.Nodup.of_map Prod.fst hn.fn
  refine List.Nodup.map_on ?_ hnd
  rintro ⟨s, f⟩ hx ⟨s', f'⟩ hy heq
  simp only [Prod.mk.injEq] at heq
  have h1 := Map.get?_of_mem hn.fn hx
  have h2 := Map.get?_of_mem hn.fn hy
  have := hn.uniq _ _ _ _ h1 h2 heq.1 heq.2.1 heq.2.2
  subst this
  rw [h1] at h2; cases h2; rfl

/-- A request of node 2 is being relayed to node 3 under number 1: an ack of node 3 is passed on under number 77, and
servicing the timers at the deadline sends a nack instead. The same request again, or one from a spoofed address, is
refused, another one is accepted, and after two the cap is reached. -/
example : (relaying (Ex.after Ex.hRelay) 1).map (fun f => (f.replyTo, f.target, f.requesterSeq, f.deadline)) =
      some (102, 103, 77, 550 * MS) ∧
    (((Ex.after Ex.hRelay).step Ex.cfg Ex.env (.packet 103 (.ack 1 [5]) (60 * MS))).1.net.transmits.flatMap
      answersIn).map (fun x => (x.1, match x.2 with | .ack s b => some (s, b) | _ => none)) =
        [(102, some (77, [5]))] ∧
    (((Ex.after Ex.hRelay).step Ex.cfg Ex.env (.timeout (550 * MS))).1.net.transmits.flatMap
      answersIn).map (fun x => (x.1, match x.2 with | .nack s => some s | _ => none)) = [(102, some 77)] := by
  decide +kernel

example : (relays (Ex.after Ex.hRelay)).length < Ex.cfg.maxIndirectForwards ∧
    (Ex.after Ex.hRelay).core.lifecycle = .running ∧
    (relays (Ex.after (Ex.hRelay ++ [.packet 102 (.indirectPing
      { seq := 78, source := { id := 2, addr := 102 }, target := { id := 3, addr := 103 } }) (50 * MS)]))).length = 2 := by
  decide +kernel

/-! ### C52: pings are answered only for this node -/

/-- C52. A ping that names another node as its target, or that arrives after leaving, changes nothing and is not
answered. -/
theorem C52_other {e : Ep I A} (src : A) (p : Ping I A) (now : Nat)
    (hp : p.target.id ≠ cfg.localId ∨ e.core.lifecycle ≠ .running) :
    (e.step cfg env (.packet src (.ping p) now)).1 = e := by
  by_cases hr : e.core.lifecycle = .running
  · rw [ping_packet_step hr]
    unfold handlePing
    rcases hp with hp | hp
    · rw [if_pos hp]
    · exact absurd hr hp
  · exact packet_stopped hr _ _ _

/-- C52. A ping that names this node is answered by exactly one datagram: an ack with the ping's number to the address
the packet came from. It carries the application's payload, unless that is restricted to members and no member with
the id the ping names as its source is known at that address; then it carries none. Nothing else changes. -/
theorem C52_answer {e : Ep I A} (h : Reachable cfg env e) (hr : e.core.lifecycle = .running) (src : A) (p : Ping I A)
    (now : Nat) (hp : p.target.id = cfg.localId) :
    let e' := (e.step cfg env (.packet src (.ping p) now)).1
    e'.net.transmits = e.net.transmits ++ [.packet src (.ack p.seq
      (if cfg.ackPayloadToMembersOnly = true ∧
          ¬ (∃ m ∈ e.core.members, m.server.id = p.source.id ∧ m.server.addr = src) then []
        else e.net.ackPayload))] ∧
    e'.core = e.core ∧ (∀ s, pending e' s = pending e s) ∧ relays e' = relays e ∧
    e'.net.ackPayload = e.net.ackPayload := by
  intro e'
  have he : e' = e.handlePing cfg src p := ping_packet_step hr _ _ _
  have hk : knownAt e.core.members p.source.id src = true ↔
      ∃ m ∈ e.core.members, m.server.id = p.source.id ∧ m.server.addr = src := by
    unfold knownAt
    constructor
    · intro hk
      split at hk
      · rename_i m hm
        exact ⟨m, Table.get_mem hm, Table.get_id hm, by simpa using hk⟩
      · cases hk
    · rintro ⟨m, hm, h1, h2⟩
      rw [(Table.get_iff (reachable_good h).inv.nodup).2 ⟨hm, h1⟩]
      simpa using h2
  unfold handlePing at he
  rw [if_neg (by simpa using hp)] at he
  by_cases hc : cfg.ackPayloadToMembersOnly = true ∧
      ¬ (∃ m ∈ e.core.members, m.server.id = p.source.id ∧ m.server.addr = src)
  · rw [if_pos hc]
    rw [← hk] at hc
    rw [if_neg (by simp [hc.1]; simpa using hc.2)] at he
    rw [he]
    exact ⟨rfl, rfl, fun _ => rfl, rfl, rfl⟩
  · rw [if_neg hc]
    rw [← hk] at hc
    rw [if_pos] at he
    · rw [he]
      exact ⟨rfl, rfl, fun _ => rfl, rfl, rfl⟩
    · simp only [not_and, Decidable.not_not] at hc
      cases hm : cfg.ackPayloadToMembersOnly with
      | false => rfl
      | true => simpa using hc hm

/-- C52. The payload acks carry is the one the application set last: only setting it changes it. -/
theorem C52_payload {e : Ep I A} (h : Reachable cfg env e) (op : Op I A) :
    (e.step cfg env op).1.net.ackPayload = e.net.ackPayload ∨
    ∃ payload, op = .setAckPayload payload ∧ (e.step cfg env op).1.net.ackPayload = payload := by
  rcases step_payload h op with h1 | ⟨b, h1, _, h2⟩
  · exact .inl h1
  · exact .inr ⟨b, h1, h2⟩

/-- Node 1 is known at address 101: it is told the payload, a spoofed sender is not. -/
example : (((Ex.after (Ex.h1 ++ [.setAckPayload [4, 2]])).step Ex.cfg Ex.env (.packet 101 (.ping
        { seq := 9, source := { id := 1, addr := 101 }, target := { id := 0, addr := 100 } }) 40)).1.net.transmits.flatMap
      answersIn).map (fun x => (x.1, match x.2 with | .ack s b => some (s, b) | _ => none)) = [(101, some (9, [4, 2]))] ∧
    (((Ex.after (Ex.h1 ++ [.setAckPayload [4, 2]])).step Ex.cfg Ex.env (.packet 109 (.ping
        { seq := 9, source := { id := 1, addr := 101 }, target := { id := 0, addr := 100 } }) 40)).1.net.transmits.flatMap
      answersIn).map (fun x => (x.1, match x.2 with | .ack s b => some (s, b) | _ => none)) = [(109, some (9, []))] := by
  decide +kernel

end Verif.Props
