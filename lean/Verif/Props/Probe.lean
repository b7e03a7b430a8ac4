import Verif.Proof.ProbeFacts
import Verif.Example.Endpoint
/-
C36–C38: which acks count, how pings are reported, and sequence numbers.
-/
namespace Verif.Props
open Verif Ep Spec
variable {I A : Type} [DecidableEq I] [DecidableEq A]
variable {cfg : Cfg I A} {env : Env I A}

/-! ### C36: acks count only from legitimate responders -/

/-- C36. An ack changes nothing at all unless it comes from a legitimate responder of the probe or ping pending under
its sequence number, or answers a relayed ping in time. -/
theorem C36_ignored {e : Ep I A} (h : Reachable cfg env e) (src : A) (seq : Nat) (payload : Bytes) (now : Nat)
    (hp : ∀ p, pending e seq = some p → ¬ Legitimate p src)
    (hf : ∀ f, relaying e seq = some f → f.target = src → f.deadline ≤ now) :
    (e.step cfg env (.packet src (.ack seq payload) now)).1 = e := by
  by_cases hr : e.core.lifecycle = .running
  · rw [ack_step hr]
    exact ack_ignored (reachable_netOk h) hp hf
  · show e.handlePacket cfg env src (.ack seq payload) now = _
    unfold handlePacket
    rw [if_pos hr]

/-- C36. An ack from a legitimate responder before the deadline concludes exactly that probe or ping: it is reported
with its round-trip time (a failure-detection probe only if the target itself answered), the health score improves
for a failure-detection probe, and nothing else changes. -/
theorem C36_accepted {e : Ep I A} (h : Reachable cfg env e) (hr : e.core.lifecycle = .running) {src : A} {seq : Nat}
    {payload : Bytes} {now : Nat} {p : Probe I A} (hp : pending e seq = some p) (hl : Legitimate p src)
    (hd : now < p.failureDeadline) :
    let e' := (e.step cfg env (.packet src (.ack seq payload) now)).1
    pending e' seq = none ∧ (∀ s, s ≠ seq → pending e' s = pending e s) ∧ (∀ s, relaying e' s = relaying e s) ∧
    e'.core.events = e.core.events ++
      (if p.kind = .ping ∨ src = p.target.addr then [.pingCompleted seq p.target (now - p.sentAt) payload] else []) ∧
    e'.core.awareness = (if p.kind = .detection then e.core.awareness.recordSuccess else e.core.awareness) ∧
    e'.core.members = e.core.members ∧ e'.net.transmits = e.net.transmits := by
  intro e'
  have he : e' = e.completeProbeSuccess cfg env seq (decide (p.target.addr = src)) payload now := by
    show (e.step cfg env (.packet src (.ack seq payload) now)).1 = _
    rw [ack_step hr, ack_probe (reachable_netOk h) hp hl]
  have hnet := complete_net (cfg := cfg) (env := env) e seq now (decide (p.target.addr = src)) payload p hp hd
  have hev := complete_events (cfg := cfg) (env := env) e seq now (decide (p.target.addr = src)) payload p hp hd
  rw [← he] at hnet hev
  refine ⟨?_, ?_, ?_, ?_, ?_, ?_, ?_⟩
  · unfold pending; rw [hnet]; dsimp only; rw [Map.get?_erase, if_pos rfl]
  · intro s hs; unfold pending; rw [hnet]; dsimp only; rw [Map.get?_erase, if_neg (Ne.symm hs)]
  · intro s; unfold relaying; rw [hnet]
  · rw [hev]
    unfold doneEvent
    simp only [decide_eq_true_eq, eq_comm (a := src)]
  · rw [he]
    unfold completeProbeSuccess
    have hp' : e.net.probes.get? seq = some p := hp
    rw [hp']
    dsimp only
    rw [if_neg (by omega)]
    cases p.kind with
    | detection => dsimp only; split <;> rfl
    | ping => rfl
  · rw [he]
    unfold completeProbeSuccess
    have hp' : e.net.probes.get? seq = some p := hp
    rw [hp']
    dsimp only
    rw [if_neg (by omega)]
    cases p.kind with
    | detection => dsimp only; split <;> rfl
    | ping => rfl
  · rw [hnet]

/-- C36. An ack from a legitimate responder at or after the deadline does not count as an answer: the probe or ping
fails. -/
theorem C36_late {e : Ep I A} (h : Reachable cfg env e) (hr : e.core.lifecycle = .running) {src : A} {seq : Nat}
    {payload : Bytes} {now : Nat} {p : Probe I A} (hp : pending e seq = some p) (hl : Legitimate p src)
    (hd : p.failureDeadline ≤ now) :
    let e' := (e.step cfg env (.packet src (.ack seq payload) now)).1
    pending e' seq = none ∧ (∀ s, s ≠ seq → pending e' s = pending e s) ∧ (∀ s, relaying e' s = relaying e s) ∧
    e'.core.events = e.core.events ++ (if p.kind = .ping then [.pingFailed seq p.target] else []) ∧
    e'.net.transmits = e.net.transmits := by
  intro e'
  have he : e' = e.probeTerminateFailure cfg env seq now := by
    show (e.step cfg env (.packet src (.ack seq payload) now)).1 = _
    rw [ack_step hr, ack_probe (reachable_netOk h) hp hl, complete_late e seq now _ _ p hp hd]
  have hnet := terminate_net (cfg := cfg) (env := env) e seq now p hp
  have hev := terminate_events (cfg := cfg) (env := env) e seq now p hp
  rw [← he] at hnet hev
  have hpr : e'.net.probes = e.net.probes.erase seq := by rw [hnet, discard_probes]
  refine ⟨?_, ?_, ?_, ?_, ?_⟩
  · unfold pending; rw [hpr, Map.get?_erase, if_pos rfl]
  · intro s hs; unfold pending; rw [hpr, Map.get?_erase, if_neg (Ne.symm hs)]
  · intro s; unfold relaying; rw [hnet]; unfold discardProbe; dsimp only; split <;> rfl
  · rw [hev]
    unfold failEvent
    cases p.kind <;> simp
  · rw [hnet, discard_transmits]

/-- C36. PingCompleted is queued only by the ack of a legitimate responder of the pending probe or ping before its
deadline, or by the ack of a reliable ping with its sequence number read before the deadline. -/
theorem C36_only {e : Ep I A} (h : Reachable cfg env e) (op : Op I A) (seq : Nat) (new : List (Event I A))
    (hq : queuedOutcomes (e.step cfg env op).1 seq = queuedOutcomes e seq ++ new) {t : NodeState I A} {rtt : Nat}
    {payload : Bytes} (hev : .pingCompleted seq t rtt payload ∈ new) :
    ∃ p now, pending e seq = some p ∧ now < p.failureDeadline ∧ t = p.target ∧ rtt = now - p.sentAt ∧
      ((∃ src, op = .packet src (.ack seq payload) now ∧ Legitimate p src ∧ (p.kind = .ping ∨ src = p.target.addr)) ∨
       (∃ t, op = .streamEvent (.payload (.reliablePingAcked seq now)) t ∧ payload = [] ∧ p.kind = .ping)) := by
  by_cases ho : op = .pollEvent
  · subst ho
    rw [pollEvent_outcomes e seq hq] at hev
    cases hev
  · obtain ⟨new', hq', hf⟩ := step_fate h op ho seq
    rw [hq'] at hq
    have hnew := List.append_cancel_left hq
    subst hnew
    generalize pending (e.step cfg env op).1 seq = o' at hf
    cases hf with
    | kept p p' ho hs => cases hev
    | ended _ _ ho hn =>
      rcases ho with ⟨_, rfl⟩ | ⟨p, ho, he⟩
      · cases hev
      · rcases he with ⟨now, _, rfl⟩ | ⟨direct, pl, now, hd, hw, rfl⟩
        · unfold failEvent at hev
          cases hk : p.kind <;> rw [hk] at hev <;> simp at hev
        · unfold doneEvent at hev
          split at hev
          · rename_i hk
            simp only [List.mem_singleton, Event.pingCompleted.injEq, true_and] at hev
            obtain ⟨rfl, rfl, rfl⟩ := hev
            refine ⟨p, now, ho, hd, rfl, rfl, ?_⟩
            rcases hw with ⟨src, ho', hl, hdi⟩ | ⟨⟨t, ho'⟩, hdi, hpl⟩
            · left
              refine ⟨src, ho', ?_, ?_⟩
              · rcases hl with hl | hl
                · exact .inl hl.symm
                · exact .inr (by rw [relaysOf_eq]; exact hl)
              · rcases hk with hk | hk
                · exact .inl hk
                · rw [hdi] at hk; exact .inr (by simpa [eq_comm] using hk)
            · right
              refine ⟨t, ho', hpl, ?_⟩
              rcases hk with hk | hk
              · exact hk
              · rw [hdi] at hk; cases hk
          · cases hev

/-- C36. A pending probe or ping stays pending through a call, unless the call proves its target reachable in time or
finds that it ran out of time. -/
theorem C36_ends {e : Ep I A} (h : Reachable cfg env e) (op : Op I A) {seq : Nat} {p : Probe I A}
    (hp : pending e seq = some p) :
    (∃ p', pending (e.step cfg env op).1 seq = some p' ∧ SameProbe p p') ∨ Succeeds seq p op ∨ RunsOut cfg p op := by
  by_cases ho : op = .pollEvent
  · subst ho
    left
    refine ⟨p, ?_, .refl p⟩
    unfold pending; rw [pollEvent_probes]; exact hp
  · obtain ⟨new, hq, hf⟩ := step_fate h op ho seq
    generalize pending (e.step cfg env op).1 seq = o' at hf
    cases hf with
    | kept q q' hpe hs =>
      rw [hp] at hpe; cases hpe
      exact .inl ⟨q', rfl, hs.toSameProbe⟩
    | ended _ _ ho hn =>
      rcases ho with ⟨ho, _⟩ | ⟨q, ho, he⟩
      · rw [hp] at ho; cases ho
      · rw [hp] at ho; cases ho
        rcases he with ⟨now, hw, _⟩ | ⟨direct, pl, now, hd, hw, _⟩
        · right; right
          refine ⟨now, hw.1, ?_⟩
          rcases hw.2 with h1 | ⟨h1, h2, d, h3⟩
          · exact .inl h1
          · exact .inr ⟨h1, h2, by unfold relaysOf; rw [h3]⟩
        · right; left
          rcases hw with ⟨src, rfl, hl, _⟩ | ⟨⟨t, rfl⟩, _⟩
          · refine .ack src pl now ?_ hd
            rcases hl with hl | hl
            · exact .inl hl.symm
            · exact .inr (by rw [relaysOf_eq]; exact hl)
          · exact .stream now t hd

/-- C36. A relay counts as asked only if this node sent it the request for this probe: relays are added by timer calls
only, and each one added is sent an IndirectPing with the probe's sequence number and target in the same call. -/
theorem C36_asked {e : Ep I A} (h : Reachable cfg env e) (op : Op I A) {seq : Nat} {p' : Probe I A}
    (hp : pending (e.step cfg env op).1 seq = some p') {a : A} (ha : a ∈ relaysOf p') :
    (∃ p, pending e seq = some p ∧ SameProbe p p' ∧ a ∈ relaysOf p) ∨
    (∃ now l, op = .timeout now ∧ (e.step cfg env op).1.net.transmits = e.net.transmits ++ l ∧
      .packet a (.indirectPing { seq, source := localNode cfg
                                 target := { id := p'.target.id, addr := p'.target.addr } }) ∈ l) := by
  have key : ∀ p', (e.step cfg env op).1.net.probes.get? seq = some p' → ∀ a ∈ asked p',
      (∃ p, pending e seq = some p ∧ SameProbe p p' ∧ a ∈ asked p) ∨
      (∃ now l, op = .timeout now ∧ (e.step cfg env op).1.net.transmits = e.net.transmits ++ l ∧
        .packet a (relayRequest cfg seq p') ∈ l) := by
    refine (step_micro_induct (Q := fun b => (∀ now, op = .timeout now → ∃ l, b.net.transmits = e.net.transmits ++ l) ∧ ∀ p', b.net.probes.get? seq = some p' → ∀ a ∈ asked p',
      (∃ p, pending e seq = some p ∧ SameProbe p p' ∧ a ∈ asked p) ∨
      (∃ now l, op = .timeout now ∧ b.net.transmits = e.net.transmits ++ l ∧
        .packet a (relayRequest cfg seq p') ∈ l)) h op ?_ ?_).2
    · refine ⟨fun _ _ => ⟨[], by simp⟩, ?_⟩
      intro p' hp a ha
      exact .inl ⟨p', hp, .refl _, ha⟩
    · rintro late b c hg hn ⟨hsent, hq⟩ hm
      refine ⟨?_, ?_⟩
      · intro now ho
        obtain ⟨l, hl⟩ := hsent now ho
        obtain ⟨l', hl', _⟩ := micro_tx (by rw [ho]; simp) (by rw [ho]; simp) hm
        exact ⟨l ++ l', by rw [hl', hl, List.append_assoc]⟩
      intro p' hp a ha
      have grow : ∀ p, SameProbe p p' → (∃ now l, op = .timeout now ∧ b.net.transmits = e.net.transmits ++ l ∧
          .packet a (relayRequest cfg seq p) ∈ l) → (∃ now l, op = .timeout now ∧ c.net.transmits = e.net.transmits ++ l ∧
          .packet a (relayRequest cfg seq p') ∈ l) := by
        rintro p hs ⟨now, l, ho, hl, hin⟩
        obtain ⟨l', hl', _⟩ := micro_tx (by rw [ho]; simp) (by rw [ho]; simp) hm
        refine ⟨now, l ++ l', ho, by rw [hl', hl, List.append_assoc], List.mem_append_left _ ?_⟩
        unfold relayRequest at hin ⊢
        rw [hs.target]; exact hin
      cases micro_slot hm hn seq with
      | none h1 h2 => rw [h2] at hp; cases hp
      | kept q q' h1 h2 hs =>
        rw [h2] at hp; cases hp
        by_cases hin : a ∈ asked q
        · rcases hq q h1 a hin with ⟨p, hpe, hsp, hap⟩ | hr
          · exact .inl ⟨p, hpe, hsp.trans hs.toSameProbe, hap⟩
          · exact .inr (grow q hs.toSameProbe hr)
        · right
          rcases micro_asked hm h1 h2 with h3 | ⟨now, ho, htx⟩
          · rw [h3] at ha; exact absurd ha hin
          · obtain ⟨l, hl⟩ := hsent now ho
            refine ⟨now, l ++ (asked p').map (fun x => .packet x (relayRequest cfg seq q)), ho, ?_, ?_⟩
            · rw [htx, hl, List.append_assoc]
            · refine List.mem_append_right _ (List.mem_map.2 ⟨a, ha, ?_⟩)
              unfold relayRequest; rw [hs.target]
      | started q ak h1 h2 hw hlt =>
        rw [h2] at hp; cases hp
        exfalso
        rcases hw with ⟨node, now, _, _, rfl⟩ | ⟨m, now, _, _, _, rfl⟩ <;> simp [asked, Probe.newDirect] at ha
      | failed q now h1 h2 hw he hlt => rw [h2] at hp; cases hp
      | done q d pl now h1 h2 hd hw he hlt => rw [h2] at hp; cases hp
  rw [relaysOf_eq] at ha
  rcases key p' hp a ha with ⟨p, h1, h2, h3⟩ | h1
  · exact .inl ⟨p, h1, h2, by rw [relaysOf_eq]; exact h3⟩
  · exact .inr h1

/-- An application ping of node 2 is pending; node 2 is a legitimate responder, node 1 is not, and nothing is
relayed under its number. -/
example : (pending (Ex.after Ex.hPing) 1).map (fun p =>
      (p.kind, p.target.addr, p.failureDeadline, decide (Legitimate p 102), decide (Legitimate p 101))) =
    some (.ping, 102, 600 * MS, true, false) ∧ (relaying (Ex.after Ex.hPing) 1).isNone = true ∧
    (Ex.after Ex.hPing).core.lifecycle = .running := by decide +kernel

/-- A probe of node 3 is pending for which the relay 102 was asked. -/
example : (pending (Ex.after Ex.hProbe) 1).map (fun p =>
      (p.kind, p.target.addr, relaysOf p, decide (Legitimate p 102), decide (Legitimate p 103))) =
    some (.detection, 103, [102], true, true) := by decide +kernel

/-- An in-time ack of the ping queues one outcome. -/
example : (queuedOutcomes (Ex.after Ex.hPing) 1).length = 0 ∧
    (queuedOutcomes ((Ex.after Ex.hPing).step Ex.cfg Ex.env (.packet 102 (.ack 1 [9]) (110 * MS))).1 1).length = 1 := by
  decide +kernel

/-! ### C37: application pings complete exactly once -/

/-- C37. A ping the application started is pending under the returned number, for the node and with the deadline it
was started with, one ping is sent to its address, and nothing was pending under the number before. -/
theorem C37_start {e : Ep I A} (node : TNode I A) (now seq : Nat)
    (hok : (e.step cfg env (.ping node now)).2 = .pingId (.ok seq)) :
    let e' := (e.step cfg env (.ping node now)).1
    (∃ p, pending e' seq = some p ∧ p.kind = .ping ∧ p.target.id = node.id ∧ p.target.addr = node.addr ∧
      p.sentAt = now ∧ p.failureDeadline = now + cfg.probeTimeout) ∧
    pending e seq = none ∧ (∀ s, s ≠ seq → pending e' s = pending e s) ∧
    e'.net.transmits = e.net.transmits ++
      [.packet node.addr (.ping { seq, source := localNode cfg, target := node })] ∧
    e'.core = e.core := by
  have hok' : (e.ping cfg env node now).2 = .ok seq := by
    have : Out.pingId (I := I) (A := A) (e.ping cfg env node now).2 = .pingId (.ok seq) := hok
    simpa using this
  show _ ∧ _
  simp only [step]
  unfold Ep.ping at hok' ⊢
  split at hok'
  · cases hok'
  · rename_i hr
    rw [if_neg hr]
    dsimp only at hok' ⊢
    cases ha : allocSeq e.net with
    | none => rw [ha] at hok'; cases hok'
    | some s =>
      rw [ha] at hok'
      dsimp only at hok' ⊢
      cases henc : encodeTyped env.CI env.CA
          (.ping { seq := s, source := localNode cfg, target := node } : Message I A) with
      | error x => rw [henc] at hok'; cases hok'
      | ok b =>
        rw [henc] at hok'
        dsimp only at hok' ⊢
        split at hok'
        · cases hok'
        · rename_i hb
          rw [if_neg hb]
          cases hok'
          have hfree := (allocSeq_spec ha).2.2.1
          have hg : ∀ (m : Map Nat (Probe I A)) (x : Probe I A), (m.insert seq x).get? seq = some x :=
            fun m x => by rw [Map.get?_insert, if_pos rfl]
          refine ⟨⟨_, hg _ _, rfl, ?_, ?_, rfl, rfl⟩, hfree, ?_, rfl, rfl⟩
          · unfold pingTarget
            dsimp only [Probe.newDirect]
            split
            · rename_i m hm
              have := Table.get_id hm
              split
              · exact this
              · rfl
            · rfl
          · unfold pingTarget
            dsimp only [Probe.newDirect]
            split
            · split
              · assumption
              · rfl
            · rfl
          · intro s' hs'
            unfold pending send
            dsimp only
            rw [Map.get?_insert, if_neg (Ne.symm hs')]

/-- C37. While nothing is pending under a number, nothing is reported for it. -/
theorem C37_none {e : Ep I A} (h : Reachable cfg env e) (seq : Nat) (ops : List (Op I A))
    (hn : ∀ a, a <+: ops → a ≠ ops → pending (Ep.run cfg env e a) seq = none) :
    outcomes cfg env e ops seq = queuedOutcomes e seq := by
  induction ops using snoc_induction with
  | h0 => exact outcomes_nil e seq
  | h1 ops op ih =>
    have hprev : pending (Ep.run cfg env e ops) seq = none :=
      hn ops (List.prefix_append _ _) (by simp)
    have hih := ih (fun a ha hne => hn a (ha.trans (List.prefix_append _ _)) (by
      rintro rfl
      have := ha.length_le
      simp at this))
    rw [outcomes_snoc e ops op seq [] ?_ (fun _ => rfl), List.append_nil, hih]
    intro ho
    rw [run_snoc]
    obtain ⟨new, hq, hf⟩ := step_fate (reachable_run h ops) op ho seq
    generalize pending ((Ep.run cfg env e ops).step cfg env op).1 seq = o' at hf
    cases hf with
    | kept q q' hpe hs => rw [hprev] at hpe; cases hpe
    | ended _ _ hpe hn =>
      rcases hpe with ⟨_, rfl⟩ | ⟨q, hpe, he⟩
      · exact hq
      · rw [hprev] at hpe; cases hpe

/-- C37. Take a ping pending in any reachable state and any further calls. Either it is still pending and nothing more
was reported for its number; or some call ended it, and reported exactly one outcome for it: none before, and
none after as long as the number is not issued again. -/
theorem C37_once {e : Ep I A} (h : Reachable cfg env e) {seq : Nat} {p : Probe I A} (hp : pending e seq = some p)
    (hk : p.kind = .ping) (ops : List (Op I A)) :
    (∃ p', pending (Ep.run cfg env e ops) seq = some p' ∧ SameProbe p p' ∧
      outcomes cfg env e ops seq = queuedOutcomes e seq) ∨
    (∃ a op b ev, ops = a ++ op :: b ∧ IsOutcomeOf seq p ev ∧
      outcomes cfg env e a seq = queuedOutcomes e seq ∧
      outcomes cfg env e (a ++ [op]) seq = queuedOutcomes e seq ++ [ev] ∧
      ((∀ b', b' <+: b → b' ≠ b → pending (Ep.run cfg env e (a ++ op :: b')) seq = none) →
        outcomes cfg env e ops seq = queuedOutcomes e seq ++ [ev])) := by
  induction ops using snoc_induction with
  | h0 => exact .inl ⟨p, hp, .refl p, outcomes_nil e seq⟩
  | h1 ops op ih =>
    rcases ih with ⟨p', hp', hs, ho⟩ | ⟨a, op', b, ev, rfl, hev, h1, h2, h3⟩
    · rcases ping_step (reachable_run h ops) op hp' (hs.kind.trans hk) with ⟨q, hq, hsq, hqq⟩ | ⟨ev, hev, hne, hqq⟩
      · left
        refine ⟨q, by rw [run_snoc]; exact hq, hs.trans hsq, ?_⟩
        rw [outcomes_snoc e ops op seq [] (fun hne => by rw [run_snoc, List.append_nil]; exact hqq hne) (fun _ => rfl),
          List.append_nil, ho]
      · right
        have hsn := outcomes_snoc e ops op seq [ev] (fun _ => by rw [run_snoc]; exact hqq) (fun h => absurd h hne)
        refine ⟨ops, op, [], ev, rfl, ?_, ho, by rw [hsn, ho], fun _ => by rw [hsn, ho]⟩
        unfold IsOutcomeOf at hev ⊢
        rw [← hs.target]; exact hev
    · right
      refine ⟨a, op', b ++ [op], ev, by simp, hev, h1, h2, fun hfree => ?_⟩
      have hb := h3 (fun b' hb' hne => hfree b' (hb'.trans (List.prefix_append _ _)) (by
        rintro rfl
        have := hb'.length_le
        simp at this))
      have hlast : pending (Ep.run cfg env e (a ++ op' :: b)) seq = none :=
        hfree b (List.prefix_append _ _) (by simp)
      rw [outcomes_snoc e (a ++ op' :: b) op seq [] ?_ (fun _ => rfl), List.append_nil, hb]
      intro ho
      rw [run_snoc]
      obtain ⟨new, hq, hf⟩ := step_fate (reachable_run h (a ++ op' :: b)) op ho seq
      generalize pending ((Ep.run cfg env e (a ++ op' :: b)).step cfg env op).1 seq = o' at hf
      cases hf with
      | kept q q' hpe hs => rw [hlast] at hpe; cases hpe
      | ended _ _ hpe hn =>
        rcases hpe with ⟨_, rfl⟩ | ⟨q, hpe, he⟩
        · exact hq
        · rw [hlast] at hpe; cases hpe

/-- C37. Servicing the timers of a running node at or after the deadline of a ping fails it, and leaves no ping pending
at or past its deadline. -/
theorem C37_deadline {e : Ep I A} (h : Reachable cfg env e) (hr : e.core.lifecycle = .running) (now : Nat) :
    (∀ seq p, pending (e.step cfg env (.timeout now)).1 seq = some p → p.kind = .ping → now < p.failureDeadline) ∧
    (∀ seq p, pending e seq = some p → p.kind = .ping → p.failureDeadline ≤ now →
      queuedOutcomes (e.step cfg env (.timeout now)).1 seq = queuedOutcomes e seq ++ [.pingFailed seq p.target]) := by
  refine ⟨fun seq p hp hk => timeout_ping_pending h hr now hp hk, ?_⟩
  intro seq p hp hk hd
  rcases ping_step h (.timeout now) hp hk with ⟨q, hq, hs, _⟩ | ⟨ev, hev, _, hq⟩
  · have := timeout_ping_pending h hr now hq (hs.kind.trans hk)
    rw [hs.deadline] at this
    omega
  · rcases hev with ⟨rtt, pl, rfl⟩ | rfl
    · obtain ⟨_, _, _, _, _, _, h1 | h1⟩ := C36_only h (.timeout now) seq _ hq (List.mem_singleton.2 rfl)
      · obtain ⟨_, h1, _⟩ := h1; cases h1
      · obtain ⟨_, h1, _⟩ := h1; cases h1
    · exact hq

/-- The ping of the example is returned with number 1, and is pending until the timers are serviced. -/
example : (match ((Ex.after Ex.h1).step Ex.cfg Ex.env (.ping { id := 2, addr := 102 } (100 * MS))).2 with
      | .pingId (.ok s) => some s
      | _ => none) = some 1 ∧
    ((pending (Ex.after Ex.hPing) 1).map (fun p => decide (p.kind = .ping ∧ p.failureDeadline ≤ 700 * MS))) = some true ∧
    ((pending (Ex.after (Ex.hPing ++ [.timeout (700 * MS)])) 1).isNone ∧
      (outcomes Ex.cfg Ex.env (Ex.after Ex.hPing) [.pollEvent, .timeout (700 * MS), .pollEvent] 1).length = 1) := by
  decide +kernel

/-! ### C38: sequence numbers in flight are unique -/

/-- C38. The number of a new ping is not zero, fits 32 bits, and no probe, ping or relayed ping is outstanding under
it. -/
theorem C38_ping {e : Ep I A} (node : TNode I A) (now seq : Nat)
    (hok : (e.step cfg env (.ping node now)).2 = .pingId (.ok seq)) :
    seq ≠ 0 ∧ seq < 2 ^ 32 ∧ pending e seq = none ∧ relaying e seq = none := by
  have hok' : (e.ping cfg env node now).2 = .ok seq := by
    have : Out.pingId (I := I) (A := A) (e.ping cfg env node now).2 = .pingId (.ok seq) := hok
    simpa using this
  unfold Ep.ping at hok'
  split at hok'
  · cases hok'
  · dsimp only at hok'
    cases ha : allocSeq e.net with
    | none => rw [ha] at hok'; cases hok'
    | some s =>
      rw [ha] at hok'
      dsimp only at hok'
      split at hok'
      · cases hok'
      · split at hok'
        · cases hok'
        · cases hok'
          obtain ⟨h1, h2, h3, h4, _⟩ := allocSeq_spec ha
          exact ⟨h1, h2, h3, h4⟩

/-- C38. A failure-detection probe is started under a number that is not zero, fits 32 bits and under which no probe,
ping or relayed ping is outstanding; everything outstanding before stays as it was. -/
theorem C38_probe {e : Ep I A} (now : Nat) :
    let e' := (e.step cfg env (.startProbe now)).1
    (∀ s, pending e' s = pending e s ∨ (pending e s = none ∧ relaying e s = none ∧ s ≠ 0 ∧ s < 2 ^ 32)) ∧
    (∀ s, relaying e' s = relaying e s) := by
  show _ ∧ _
  simp only [step]
  have hsend : ∀ (e : Ep I A) (m : Member I A) (seq : Nat),
      (e.sendProbe cfg env m seq).1.net.probes = e.net.probes ∧
        (e.sendProbe cfg env m seq).1.net.forwards = e.net.forwards := by
    intro e m seq
    unfold sendProbe
    dsimp only
    have hpush : ∀ (e : Ep I A) (x : A) (m : Message I A), (e.pushWithinMtu cfg env x m).1.net.probes = e.net.probes ∧
        (e.pushWithinMtu cfg env x m).1.net.forwards = e.net.forwards := by
      intro e x m; unfold pushWithinMtu; split <;> exact ⟨rfl, rfl⟩
    split
    · split
      · exact ⟨rfl, rfl⟩
      · refine ⟨?_, ?_⟩
        · rw [(hpush _ _ _).1, (hpush _ _ _).1]
        · rw [(hpush _ _ _).2, (hpush _ _ _).2]
    · exact hpush _ _ _
  unfold startProbe
  split
  · exact ⟨fun _ => .inl rfl, fun _ => rfl⟩
  · split
    · exact ⟨fun _ => .inl rfl, fun _ => rfl⟩
    · dsimp only
      split
      · exact ⟨fun _ => .inl rfl, fun _ => rfl⟩
      · rename_i seq ha
        obtain ⟨h1, h2, h3, h4, _⟩ := allocSeq_spec ha
        refine ⟨fun s => ?_, fun s => ?_⟩
        · by_cases hs : s = seq
          · subst hs; exact .inr ⟨h3, h4, h1, h2⟩
          · left
            unfold pending
            dsimp only
            rw [Map.get?_modify, if_neg (Ne.symm hs), (hsend _ _ _).1]
            dsimp only
            rw [Map.get?_insert, if_neg (Ne.symm hs)]
        · unfold relaying
          dsimp only
          rw [(hsend _ _ _).2]

/-- C38. In every reachable state the numbers of the outstanding probes, pings and relayed pings are not zero, fit 32
bits, and none is used twice. -/
theorem C38_unique {e : Ep I A} (h : Reachable cfg env e) :
    (e.net.probes.keys ++ e.net.forwards.keys).Nodup ∧
    ∀ s ∈ e.net.probes.keys ++ e.net.forwards.keys, s ≠ 0 ∧ s < 2 ^ 32 := by
  have hn := reachable_netOk h
  refine ⟨?_, ?_⟩
  · refine List.nodup_append.2 ⟨hn.pn, hn.fn, ?_⟩
    rintro a ha b hb rfl
    obtain ⟨p, hp⟩ := Option.isSome_iff_exists.1 (Map.mem_keys_iff.1 ha)
    obtain ⟨f, hf⟩ := Option.isSome_iff_exists.1 (Map.mem_keys_iff.1 hb)
    exact hn.disjoint hp hf
  · intro s hs
    have hack : ∃ a, e.net.acks.get? s = some a := by
      rcases List.mem_append.1 hs with hs | hs
      · obtain ⟨p, hp⟩ := Option.isSome_iff_exists.1 (Map.mem_keys_iff.1 hs)
        obtain ⟨a, ha, _⟩ := hn.pa _ _ hp
        exact ⟨a, ha⟩
      · obtain ⟨f, hf⟩ := Option.isSome_iff_exists.1 (Map.mem_keys_iff.1 hs)
        obtain ⟨a, ha, _⟩ := hn.fa _ _ hf
        exact ⟨a, ha⟩
    obtain ⟨a, ha⟩ := hack
    have := hn.seq _ _ ha
    exact ⟨by omega, this.2⟩

/-- C38. No call issues a number in flight again: what is pending under a number after a call is the probe or ping that
was pending before, or one started after that had ended. (`C39_kept` says the same of relayed pings.) -/
theorem C38_kept {e : Ep I A} (h : Reachable cfg env e) (op : Op I A) {seq : Nat} {p q : Probe I A}
    (hp : pending e seq = some p) (hq : pending (e.step cfg env op).1 seq = some q) :
    SameProbe p q ∨ Succeeds seq p op ∨ RunsOut cfg p op := by
  rcases C36_ends h op hp with ⟨p', hp', hs⟩ | h1
  · rw [hp'] at hq; cases hq
    exact .inl hs
  · exact .inr h1

/-- C38. As long as fewer than `2^32 - 1` numbers are outstanding a fresh one is found, wherever the counter stands: a
running node refuses a ping only because the message with that number cannot be encoded or exceeds the MTU. -/
theorem C38_exists {e : Ep I A} (h : Reachable cfg env e) (hr : e.core.lifecycle = .running) (node : TNode I A)
    (now : Nat) (hout : e.net.probes.length + e.net.forwards.length < 2 ^ 32 - 1) :
    ∃ seq, seq ≠ 0 ∧ seq < 2 ^ 32 ∧ pending e seq = none ∧ relaying e seq = none ∧
      (e.step cfg env (.ping node now)).2 = .pingId
        (match encodeTyped env.CI env.CA (.ping { seq, source := localNode cfg, target := node } : Message I A) with
          | .error _ => .error .unencodablePingTarget
          | .ok b => if b.length ≤ cfg.gossipMtu then .ok seq else .error .pingExceedsMtu) := by
  obtain ⟨s, hs⟩ := allocSeq_exists (reachable_netOk h) hout
  obtain ⟨h1, h2, h3, h4, _⟩ := allocSeq_spec hs
  refine ⟨s, h1, h2, h3, h4, ?_⟩
  simp only [step]
  unfold Ep.ping
  rw [if_neg (by simp [isRunning, hr])]
  dsimp only
  rw [hs]
  dsimp only
  cases encodeTyped env.CI env.CA (.ping { seq := s, source := localNode cfg, target := node } : Message I A) with
  | error x => rfl
  | ok b =>
    dsimp only
    by_cases hb : b.length ≤ cfg.gossipMtu
    · rw [if_neg (by omega), if_pos hb]
    · rw [if_pos (by omega), if_neg hb]

/-- A ping and a relayed ping in flight together. -/
example : (Ex.after (Ex.hRelay ++ [.ping { id := 2, addr := 102 } (60 * MS)])).net.probes.keys = [2] ∧
    (Ex.after (Ex.hRelay ++ [.ping { id := 2, addr := 102 } (60 * MS)])).net.forwards.keys = [1] := by decide +kernel

end Verif.Props
