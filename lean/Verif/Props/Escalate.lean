import Verif.Proof.Escalate
import Verif.Example.Endpoint
/-
C58: a failure-detection probe without a direct answer is escalated.
-/
namespace Verif.Props
open Verif Spec Ep Core
variable {I A : Type} [DecidableEq I] [DecidableEq A]
variable {cfg : Cfg I A} {env : Env I A}

/-- The probe is due for escalation at `now`: it waits for a direct answer, the probe timeout is over and its deadline
is not. -/
def DueToEscalate (cfg : Cfg I A) (p : Probe I A) (now : Nat) : Prop :=
  p.kind = .detection ∧ awaitsDirect p ∧ p.sentAt + cfg.probeTimeout ≤ now ∧ now < p.failureDeadline

/-- Someone can still help: reliable pings with the target are enabled, or the request to relays fits a datagram and
some relay is alive after the call. -/
def CanEscalate (cfg : Cfg I A) (env : Env I A) (e e' : Ep I A) (seq : Nat) (p : Probe I A) : Prop :=
  ¬ optedOut e p.target.id ∨
    (wireLen env.CI env.CA (askFor cfg seq p) ≤ cfg.gossipMtu ∧ 0 < cfg.indirectChecks ∧ ∃ a, CouldRelay cfg e' p a)

/-- C58. When timers are serviced and a probe is due for escalation, it stays pending and live members other than the two
ends are asked to reach its target, each once, under the probe's own number and in no other datagram: at most as many
as configured, and that many (or all there are) if the request fits a datagram; none otherwise. -/
theorem C58_relays {e : Ep I A} (h : Reachable cfg env e) (hr : e.core.lifecycle = .running) {seq now : Nat} {p : Probe I A}
    (hp : pending e seq = some p) (hdue : DueToEscalate cfg p now)
    (hcan : CanEscalate cfg env e (e.step cfg env (.timeout now)).1 seq p) :
    let e' := (e.step cfg env (.timeout now)).1
    ∃ p', pending e' seq = some p' ∧ SameProbe p p' ∧ nackersOf p' = [] ∧ (relaysOf p').Nodup ∧
      (relaysOf p').length ≤ cfg.indirectChecks ∧ (∀ a ∈ relaysOf p', CouldRelay cfg e p a) ∧
      (∃ l, e'.net.transmits = e.net.transmits ++ l ∧
        l.filter (asksRelay seq) = (relaysOf p').map (fun a => .packet a (askFor cfg seq p))) ∧
      (if wireLen env.CI env.CA (askFor cfg seq p) ≤ cfg.gossipMtu then
        ∀ L : List A, L.Nodup → (∀ a ∈ L, CouldRelay cfg e' p a) → min cfg.indirectChecks L.length ≤ (relaysOf p').length
       else relaysOf p' = []) := by
  obtain ⟨hk, ⟨d, hd⟩, ht, hf⟩ := hdue
  obtain ⟨p', x⟩ := (handleTimeout_escalates h hr hp hk hd ht hf).1 (by
    intro ho
    rcases hcan with hc | hc
    · exact absurd ho hc
    · exact hc)
  refine ⟨p', x.pending, x.same, x.fresh, x.nodup, x.bound, x.could, x.asked, ?_⟩
  split
  · rename_i hfit; exact x.enough hfit
  · rename_i hfit
    by_contra hne
    exact hfit (x.fits hne)

/-- C58. Unless the application disabled reliable pings with the target, servicing the timers also requests a stream to
it under an unused id, until the deadline of the probe, to send it a ping with the probe's number first; the caller is
asked to dial it. -/
theorem C58_reliable {e : Ep I A} (h : Reachable cfg env e) (hr : e.core.lifecycle = .running) {seq now : Nat} {p : Probe I A}
    (hp : pending e seq = some p) (hdue : DueToEscalate cfg p now) (hon : ¬ optedOut e p.target.id) :
    let e' := (e.step cfg env (.timeout now)).1
    ∃ id i, waiting e id = none ∧ waiting e' id = some i ∧ i.peer = p.target.addr ∧ i.kind = .reliablePing seq ∧
      i.deadline = p.failureDeadline ∧
      (∀ b, encodeTyped env.CI env.CA (pingFor cfg seq p) = .ok b → i.encoded = b) ∧
      .dialRequested id p.target.addr p.failureDeadline ∈ e'.core.events := by
  obtain ⟨hk, ⟨d, hd⟩, ht, hf⟩ := hdue
  obtain ⟨p', x⟩ := (handleTimeout_escalates h hr hp hk hd ht hf).1 (fun ho => absurd ho hon)
  obtain ⟨id, h1, h2, h3⟩ := x.stream hon
  refine ⟨id, _, h1, h2, rfl, rfl, rfl, ?_, ?_⟩
  · intro b hb
    show encodeBytes env _ = b
    unfold encodeBytes
    rw [show encodeTyped env.CI env.CA (.ping { seq, source := localNode cfg, target := { id := p.target.id, addr := p.target.addr } }) = .ok b from hb]
  · obtain ⟨ev, hev, hdl⟩ := List.mem_filterMap.1 h3
    cases ev with
    | dialRequested id' peer dl => cases hdl; exact hev
    | _ => cases hdl

/-- C58. If the application disabled reliable pings with the target, servicing the timers requests no stream for the
probe. -/
theorem C58_disabled {e : Ep I A} (h : Reachable cfg env e) (hr : e.core.lifecycle = .running) {seq now : Nat} {p : Probe I A}
    (hp : pending e seq = some p) (hdue : DueToEscalate cfg p now) (hoff : optedOut e p.target.id)
    (hcan : CanEscalate cfg env e (e.step cfg env (.timeout now)).1 seq p) (id : Nat) (i : Intent A) :
    waiting (e.step cfg env (.timeout now)).1 id = some i → i.kind = .reliablePing seq → waiting e id = some i := by
  obtain ⟨hk, ⟨d, hd⟩, ht, hf⟩ := hdue
  obtain ⟨p', x⟩ := (handleTimeout_escalates h hr hp hk hd ht hf).1 (by
    intro ho
    rcases hcan with hc | hc
    · exact absurd ho hc
    · exact hc)
  exact x.out hoff id i

/-- C58. If reliable pings with the target are disabled and no relay can be asked, the probe ends with the call: whatever
is pending under its number afterwards was started by the call. -/
theorem C58_hopeless {e : Ep I A} (h : Reachable cfg env e) (hr : e.core.lifecycle = .running) {seq now : Nat} {p : Probe I A}
    (hp : pending e seq = some p) (hdue : DueToEscalate cfg p now) (hoff : optedOut e p.target.id)
    (hno : wireLen env.CI env.CA (askFor cfg seq p) ≤ cfg.gossipMtu → 0 < cfg.indirectChecks → ∀ a, ¬ CouldRelay cfg e p a)
    (p' : Probe I A) (hp' : pending (e.step cfg env (.timeout now)).1 seq = some p') : p'.sentAt = now := by
  obtain ⟨hk, ⟨d, hd⟩, ht, hf⟩ := hdue
  exact (handleTimeout_escalates h hr hp hk hd ht hf).2 hoff hno p' hp'

/-! ### Concrete cases -/

/-- Node 3 joins and is probed. -/
def hDirect : List (Op Nat Nat) := Ex.h1 ++ [.packet 103 (Ex.alive 3 1) 40, .startProbe (50 * MS)]
/-- The same, with reliable pings to node 3 disabled. -/
def hDisabled : List (Op Nat Nat) := hDirect ++ [.disableReliablePing 3]
/-- Additionally node 2 leaves: no relay remains. -/
def hAlone : List (Op Nat Nat) := hDisabled ++ [.packet 102 (Ex.dead 2 3 2) (60 * MS)]

/-- The probe is due for escalation after the probe timeout, and reliable pings are enabled. -/
example : (Ex.after hDirect).core.lifecycle = .running ∧ ¬ optedOut (Ex.after hDirect) 3 ∧
    ∃ p, pending (Ex.after hDirect) 1 = some p ∧ p.target.id = 3 ∧ DueToEscalate Ex.cfg p (600 * MS) := by
  have h : ((Ex.after hDirect).core.lifecycle = .running ∧ 3 ∉ (Ex.after hDirect).net.reliableDisabled) ∧
      (pending (Ex.after hDirect) 1).map (fun p => (p.kind, p.target.id, p.phase, p.sentAt, p.failureDeadline)) =
      some (.detection, 3, .direct (550 * MS), 50 * MS, 1050 * MS) := by decide +kernel
  refine ⟨h.1.1, h.1.2, ?_⟩
  have h2 := h.2
  cases hp : pending (Ex.after hDirect) 1 with
  | none => rw [hp] at h2; cases h2
  | some p =>
    rw [hp] at h2
    simp only [Option.map_some, Option.some.injEq, Prod.mk.injEq] at h2
    obtain ⟨h3, h4, h5, h6, h7⟩ := h2
    refine ⟨p, rfl, h4, h3, ⟨_, h5⟩, ?_, ?_⟩
    · rw [h6]; decide
    · rw [h7]; decide

-- one relay is asked and a stream requested
example : (((Ex.after hDirect).step Ex.cfg Ex.env (.timeout (600 * MS))).1.net.transmits.filter (asksRelay 1)) =
    [.packet 102 (.indirectPing { seq := 1, source := { id := 0, addr := 100 }, target := { id := 3, addr := 103 } })] := by
  decide +kernel
example : ((Ex.after hDirect).step Ex.cfg Ex.env (.timeout (600 * MS))).1.core.events.filterMap dialOf =
    [(1, 103, 1050 * MS)] := by decide +kernel

-- disabled: the relay is asked but no stream requested; without a relay the probe fails at once
example : optedOut (Ex.after hDisabled) 3 ∧
    (((Ex.after hDisabled).step Ex.cfg Ex.env (.timeout (600 * MS))).1.net.transmits.filter (asksRelay 1)).length = 1 ∧
    ((Ex.after hDisabled).step Ex.cfg Ex.env (.timeout (600 * MS))).1.core.events.filterMap dialOf = [] := by
  refine ⟨?_, ?_⟩
  · show 3 ∈ (Ex.after hDisabled).net.reliableDisabled
    decide +kernel
  · decide +kernel
example : ((Ex.after hAlone).core.members.map (fun m => (m.id, m.state))) =
    [(3, .alive), (0, .alive), (1, .suspect), (2, .left)] ∧
    (pending (Ex.after hAlone) 1).isSome ∧ 3 ∈ (Ex.after hAlone).net.reliableDisabled ∧
    pending ((Ex.after hAlone).step Ex.cfg Ex.env (.timeout (600 * MS))).1 1 = none ∧
    (member ((Ex.after hAlone).step Ex.cfg Ex.env (.timeout (600 * MS))).1 3).map (·.state) = some .suspect := by
  decide +kernel

end Verif.Props
