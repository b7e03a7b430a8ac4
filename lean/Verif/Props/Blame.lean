import Verif.Proof.Penalty
import Verif.Proof.States
import Verif.Example.Endpoint
/-
C40, C54: what a failed probe costs, and whom it blames.
-/
namespace Verif.Props
open Verif Ep Spec
variable {I A : Type} [DecidableEq I] [DecidableEq A]
variable {cfg : Cfg I A} {env : Env I A}

/-! ### C40: nacks are counted once per asked relay -/

/-- C40. At any time the nacks counted for a probe come from distinct relays that were asked, no more relays are asked than
configured, and the penalty should the probe fail is 1 if no relay was asked and at most the number of asked
relays otherwise. -/
theorem C40_bounds {e : Ep I A} (h : Reachable cfg env e) {seq : Nat} {p : Probe I A} (hp : pending e seq = some p) :
    (relaysOf p).Nodup ∧ (nackersOf p).Nodup ∧ (∀ a ∈ nackersOf p, a ∈ relaysOf p) ∧
      (relaysOf p).length ≤ cfg.indirectChecks ∧
      (relaysOf p = [] → penalty p = 1) ∧
      (relaysOf p ≠ [] → penalty p + (nackersOf p).length = (relaysOf p).length) := by
  have hok := (reachable_netOk h).ok _ _ hp
  have key : (relaysOf p).Nodup ∧ (nackersOf p).Nodup ∧ (∀ a ∈ nackersOf p, a ∈ relaysOf p) ∧
      (relaysOf p).length ≤ cfg.indirectChecks := by
    unfold relaysOf nackersOf
    cases hph : p.phase with
    | direct d => simp
    | indirect ex ps nb st d =>
      obtain ⟨_, h2, h3, h4, h5, _⟩ := hok.indirect _ _ _ _ _ hph
      exact ⟨h2, h3, h4, h5⟩
  refine ⟨key.1, key.2.1, key.2.2.1, key.2.2.2, fun h0 => by simp [penalty, h0], fun h0 => ?_⟩
  unfold penalty
  rw [if_neg h0]
  have := (key.2.1.subperm (fun a ha => key.2.2.1 a ha)).length_le
  omega

/-- C40. A nack counts exactly if it comes from an asked relay that has not answered with one yet, before the probe's
deadline. A nack that counts is added to the probe's nacks and changes nothing else; any other nack changes
nothing at all. -/
theorem C40_nack {e : Ep I A} (h : Reachable cfg env e) (src : A) (seq now : Nat) :
    let e' := (e.step cfg env (.packet src (.nack seq) now)).1
    (∃ p p', e.core.lifecycle = .running ∧ pending e seq = some p ∧ now < p.failureDeadline ∧ src ∈ relaysOf p ∧
      src ∉ nackersOf p ∧ pending e' seq = some p' ∧ SameProbe p p' ∧ relaysOf p' = relaysOf p ∧
      nackersOf p' = nackersOf p ++ [src] ∧ p'.dispatched = p.dispatched ∧
      (∀ s, s ≠ seq → pending e' s = pending e s) ∧ (∀ s, relaying e' s = relaying e s) ∧ e'.core = e.core ∧
      e'.net.transmits = e.net.transmits) ∨
    (e' = e ∧ ∀ p, e.core.lifecycle = .running → pending e seq = some p → now < p.failureDeadline →
      src ∈ relaysOf p → src ∈ nackersOf p) := by
  intro e'
  by_cases hr : e.core.lifecycle = .running
  · have he : e' = e.handleNack src seq now := by
      show e.handlePacket cfg env src (.nack seq) now = _
      unfold handlePacket
      rw [if_neg (by simp [hr])]
    unfold handleNack at he
    cases hp : e.net.probes.get? seq with
    | none =>
      rw [hp] at he
      exact .inr ⟨he, fun p _ h1 => by rw [show pending e seq = none from hp] at h1; cases h1⟩
    | some p =>
      rw [hp] at he
      dsimp only at he
      by_cases hd : now ≥ p.failureDeadline
      · rw [if_pos hd] at he
        refine .inr ⟨he, fun q _ h1 h2 => ?_⟩
        rw [show pending e seq = some p from hp] at h1; cases h1
        omega
      · rw [if_neg hd] at he
        cases hph : p.phase with
        | direct d =>
          rw [hph] at he
          refine .inr ⟨he, fun q _ h1 _ h3 => ?_⟩
          rw [show pending e seq = some p from hp] at h1; cases h1
          simp [relaysOf, hph] at h3
        | indirect ex ps nb st d =>
          rw [hph] at he
          dsimp only at he
          by_cases hc : src ∈ ps ∧ src ∉ nb
          · rw [if_pos hc] at he
            left
            refine ⟨p, { p with phase := .indirect ex ps (nb ++ [src]) st d }, hr, hp, by omega, ?_, ?_, ?_, ?_, ?_, ?_, rfl, ?_, ?_, ?_, ?_⟩
            · simpa [relaysOf, hph] using hc.1
            · simpa [nackersOf, hph] using hc.2
            · rw [he]
              unfold pending
              dsimp only
              rw [Map.get?_modify, if_pos rfl, hp]; rfl
            · exact ⟨rfl, rfl, rfl, rfl, rfl, rfl⟩
            · simp [relaysOf, hph]
            · simp [nackersOf, hph]
            · intro s hs
              rw [he]
              unfold pending
              dsimp only
              rw [Map.get?_modify, if_neg (Ne.symm hs)]
            · intro s; rw [he]; rfl
            · rw [he]
            · rw [he]
          · rw [if_neg hc] at he
            refine .inr ⟨he, fun q _ h1 _ h3 => ?_⟩
            rw [show pending e seq = some p from hp] at h1; cases h1
            by_contra h4
            exact hc ⟨by simpa [relaysOf, hph] using h3, by simpa [nackersOf, hph] using h4⟩
  · right
    have he : e' = e := by
      show e.handlePacket cfg env src (.nack seq) now = _
      unfold handlePacket
      rw [if_pos hr]
    exact ⟨he, fun p h1 => absurd h1 hr⟩

/-- C40. No other call adds a nack: a nack is counted after a call only if it was counted before, for the same probe, or the
call delivers it, from an asked relay and before the deadline. -/
theorem C40_only {e : Ep I A} (h : Reachable cfg env e) (op : Op I A) {seq : Nat} {p' : Probe I A}
    (hp : pending (e.step cfg env op).1 seq = some p') {a : A} (ha : a ∈ nackersOf p') :
    ∃ p, pending e seq = some p ∧ SameProbe p p' ∧
      (a ∈ nackersOf p ∨ ∃ now, op = .packet a (.nack seq) now ∧ now < p.failureDeadline ∧ a ∈ relaysOf p) := by
  by_cases hn : ∃ src now, op = .packet src (.nack seq) now
  · obtain ⟨src, now, rfl⟩ := hn
    rcases C40_nack h src seq now with ⟨p, q, _, h2, h3, h4, h5, h6, h7, h8, h9, _⟩ | ⟨he, _⟩
    · rw [hp] at h6; cases h6
      refine ⟨p, h2, h7, ?_⟩
      rw [h9, List.mem_append, List.mem_singleton] at ha
      rcases ha with ha | rfl
      · exact .inl ha
      · exact .inr ⟨now, rfl, h3, h4⟩
    · rw [he] at hp
      exact ⟨p', hp, .refl _, .inl ha⟩
  · by_cases ho : op = .pollEvent
    · subst ho
      unfold pending at hp
      rw [pollEvent_probes] at hp
      exact ⟨p', hp, .refl _, .inl ha⟩
    · obtain ⟨new, _, hf⟩ := step_fate h op ho seq
      have hp0 := hp
      rw [hp] at hf
      generalize ho' : some p' = o' at hf
      have hkept : (∃ q, pending e seq = some q ∧ Kept op true seq q p') → ∃ p, pending e seq = some p ∧ SameProbe p p' ∧
          (a ∈ nackersOf p ∨ ∃ now, op = .packet a (.nack seq) now ∧ now < p.failureDeadline ∧ a ∈ relaysOf p) := by
        rintro ⟨q, hpe, hs⟩
        refine ⟨q, hpe, hs.toSameProbe, .inl ?_⟩
        rcases hs.nack with h1 | h1
        · rwa [h1] at ha
        · exact absurd h1 hn
      cases hf with
      | kept q q' hpe hs =>
        cases ho'
        exact hkept ⟨q, hpe, hs⟩
      | ended _ _ hold hnew =>
        subst ho'
        rcases hnew with hn' | ⟨q, hq, hn'⟩
        · cases hn'
        · cases hq
          have hk : p'.kind = .detection ∨ p'.kind = .ping := by cases p'.kind <;> simp
          rcases hk with hk | hk
          · rcases step_started h op hp0 hk with h1 | ⟨m, now, _, _, _, _, _, _, _, _, h1, _⟩
            · exact hkept h1
            · exfalso
              have : nackersOf p' = [] := by
                unfold relaysOf at h1
                unfold nackersOf
                have hok := (reachable_netOk (reachable_step h op)).ok _ _ hp0
                cases hph : p'.phase with
                | direct d => rfl
                | indirect ex ps nb st d =>
                  rw [hph] at h1
                  dsimp only at h1 ⊢
                  have h4 := (hok.indirect _ _ _ _ _ hph).2.2.2.1
                  rw [h1] at h4
                  exact List.eq_nil_iff_forall_not_mem.2 (fun a ha => by simpa using h4 a ha)
              rw [this] at ha; cases ha
          · exfalso
            have hok := (reachable_netOk (reachable_step h op)).ok _ _ hp0
            unfold nackersOf at ha
            cases hph : p'.phase with
            | direct d => rw [hph] at ha; cases ha
            | indirect ex ps nb st d =>
              have := (hok.indirect _ _ _ _ _ hph).2.2.2.2.2.1
              rw [hk] at this; cases this

omit [DecidableEq I] in
theorem failWhy_runsOut {op : Op I A} {p : Probe I A} {now : Nat} (h : FailWhy cfg op p now) : RunsOut cfg p op := by
  refine ⟨now, h.1, ?_⟩
  rcases h.2 with h1 | ⟨h1, h2, d, h3⟩
  · exact .inl h1
  · exact .inr ⟨h1, h2, by unfold relaysOf; rw [h3]⟩

/-- C40. A timer service lowers the health score (raises the counter) exactly by the penalties of the probes it ends, as
they stood before the call: every probe past its deadline is ended, only probes that ran out of time are, and the others
stay pending. -/
theorem C40_timeout {e : Ep I A} (h : Reachable cfg env e) (hr : e.core.lifecycle = .running) (now : Nat) :
    ∃ failed : List (Nat × Probe I A), (failed.map Prod.fst).Nodup ∧
      (∀ x ∈ failed, pending e x.1 = some x.2 ∧ RunsOut cfg x.2 (.timeout now)) ∧
      (∀ s p, pending e s = some p → p.failureDeadline ≤ now → (s, p) ∈ failed) ∧
      (∀ s p, pending e s = some p → (s, p) ∈ failed ∨
        ∃ p', pending (e.step cfg env (.timeout now)).1 s = some p' ∧ SameProbe p p') ∧
      (e.step cfg env (.timeout now)).1.core.awareness =
        ((failed.filter (fun x => counts x.2)).map (fun x => penalty x.2)).foldl Awareness.recordFailure
          e.core.awareness := by
  obtain ⟨failed, h1, h2, h3, h4, h5⟩ := timeout_awareness h now
  have hmem : ∀ s p, pending e s = some p → s ∈ failed.map Prod.fst → (s, p) ∈ failed := by
    intro s p hp hs
    obtain ⟨x, hx, rfl⟩ := List.mem_map.1 hs
    have := (h2 x hx).1
    rw [hp] at this
    cases this
    exact hx
  refine ⟨failed, h1, fun x hx => ⟨(h2 x hx).1, failWhy_runsOut (h2 x hx).2⟩, ?_, ?_, h5⟩
  · exact fun s p hp hd => hmem s p hp (h4 s p hr hp hd)
  · intro s p hp
    rcases h3 s p hp with h6 | h6
    · exact .inl (hmem s p hp h6)
    · exact .inr h6

/-- C40. The ack of a legitimate responder that comes at or after the deadline fails the probe with the same penalty. -/
theorem C40_late {e : Ep I A} (h : Reachable cfg env e) (hr : e.core.lifecycle = .running) {src : A} {seq : Nat}
    {payload : Bytes} {now : Nat} {p : Probe I A} (hp : pending e seq = some p) (hl : Legitimate p src)
    (hd : p.failureDeadline ≤ now) :
    (e.step cfg env (.packet src (.ack seq payload) now)).1.core.awareness =
      if counts p then e.core.awareness.recordFailure (penalty p) else e.core.awareness := by
  have he : (e.step cfg env (.packet src (.ack seq payload) now)).1 = e.probeTerminateFailure cfg env seq now := by
    rw [ack_step hr, ack_probe (reachable_netOk h) hp hl, complete_late e seq now _ _ p hp hd]
  rw [he, terminate_awareness hp (reachable_probeGen h hp), severity_eq ((reachable_netOk h).ok _ _ hp)]

/-! ### C54: a failed probe blames only the probed incarnation -/

/-- C54. A call that may end probes makes a member that was alive suspect only on account of a failure-detection probe of
that member that ran out of time, and only if the member's record is still the one that was probed, with the
incarnation it had when the probe started. -/
theorem C54_blame {e : Ep I A} (h : Reachable cfg env e) (op : Op I A) (ho : op.probeTime.isSome) {id : I}
    {m m' : Member I A} (hm : e.core.members.get id = some m) (ha : m.state = .alive)
    (hm' : (e.step cfg env op).1.core.members.get id = some m') (hs' : m'.state = .suspect) :
    ∃ seq p, pending e seq = some p ∧ p.kind = .detection ∧ RunsOut cfg p op ∧ p.target.id = id ∧
      p.targetGeneration = m.gen ∧ p.targetIncarnation = m.incarnation ∧ m'.gen = m.gen ∧
      m'.incarnation = m.incarnation := by
  obtain ⟨seq, p, now, h1, h2, h3, h4⟩ := step_blame h op ho hm ha hm' hs'
  exact ⟨seq, p, h1, h2, failWhy_runsOut h3, h4⟩

/-- C54. A pending failure-detection probe was pending before the call, or the call started it for a remote member that is
alive or suspect in the table, and recorded that member's generation and incarnation. Its deadline is then one
probe interval, stretched by the health score, after the call. -/
theorem C54_start {e : Ep I A} (h : Reachable cfg env e) (op : Op I A) {seq : Nat} {p' : Probe I A}
    (hp : pending (e.step cfg env op).1 seq = some p') (hk : p'.kind = .detection) :
    (∃ p, pending e seq = some p ∧ SameProbe p p') ∨
    ∃ m now, (op = .startProbe now ∨ op = .timeout now) ∧
      (e.step cfg env op).1.core.members.get p'.target.id = some m ∧ p'.target.id ≠ cfg.localId ∧
      (m.state = .alive ∨ m.state = .suspect) ∧ p'.target = m.server ∧
      p'.targetIncarnation = m.incarnation ∧ p'.targetGeneration = m.gen ∧ p'.sentAt = now ∧ relaysOf p' = [] ∧
      p'.failureDeadline = now + (e.step cfg env op).1.core.awareness.scaleTimeout cfg.probeInterval := by
  rcases step_started h op hp hk with ⟨p, h1, h2⟩ | ⟨m, now, h1, h2, h3, h4, h5, h6⟩
  · exact .inl ⟨p, h1, h2.toSameProbe⟩
  · right
    have hid : p'.target.id = m.id := by rw [h5]; rfl
    have hget : (e.step cfg env op).1.core.members.get m.id = some m :=
      (Table.get_iff (reachable_good (reachable_step h op)).inv.nodup).2 ⟨h2, rfl⟩
    refine ⟨m, now, h1, by rw [hid]; exact hget, by rw [hid]; exact h3, ?_, h5, h6⟩
    have hkn := reachable_known (reachable_step h op) _ _ hget
    unfold Known at hkn
    unfold Member.deadOrLeft at h4
    simp only [Bool.or_eq_false_iff, decide_eq_false_iff_not, not_or] at h4
    tauto

/-- C54. Once the probed membership is gone from the table, was replaced by a re-join, or has a higher incarnation (it
refuted) while the probe is pending, no record of the target ever again is the one that was probed; so by C54_blame
that probe will suspect nobody. -/
theorem C54_never {e : Ep I A} (h : Reachable cfg env e) {p : Probe I A} {seq : Nat} (hp : pending e seq = some p)
    (hk : p.kind = .detection)
    (hgone : ∀ m, e.core.members.get p.target.id = some m → m.gen ≠ p.targetGeneration ∨
      p.targetIncarnation < m.incarnation) (ops : List (Op I A)) (m : Member I A)
    (hm : (Ep.run cfg env e ops).core.members.get p.target.id = some m) :
    ¬ (m.gen = p.targetGeneration ∧ m.incarnation = p.targetIncarnation) := by
  rintro ⟨h1, h2⟩
  rcases run_gone h hp hk hgone ops m hm with h3 | h3
  · exact h3 h1
  · omega

/-- While the probe is pending, a record of the probed generation is never older than what was probed, and has the
address that was probed. -/
theorem C54_generation {e : Ep I A} (h : Reachable cfg env e) {p : Probe I A} {seq : Nat} (hp : pending e seq = some p)
    (hk : p.kind = .detection) (m : Member I A) (hm : e.core.members.get p.target.id = some m)
    (hg : m.gen = p.targetGeneration) : p.targetIncarnation ≤ m.incarnation ∧ m.server.addr = p.target.addr :=
  (reachable_probeGen h hp hk).2.2.2 m hm hg

/-! ### A concrete case -/

-- node 3 is probed, relay 102 was asked; its nack counts once, others do not
example : ((Ex.after Ex.hProbe).net.probes.get? 1).map (fun p => (relaysOf p, nackersOf p, penalty p, p.failureDeadline)) =
    some ([102], [], 1, 1050 * MS) := by decide +kernel
example : ((Ex.after (Ex.hProbe ++ [.packet 102 (.nack 1) (700 * MS), .packet 102 (.nack 1) (710 * MS),
    .packet 101 (.nack 1) (720 * MS)])).net.probes.get? 1).map (fun p => (relaysOf p, nackersOf p, penalty p)) =
    some ([102], [102], 0) := by decide +kernel

-- the probe fails: with the nack nothing is charged, without it the counter rises by 1; node 3 is suspected
example : (Ex.after (Ex.hProbe ++ [.packet 102 (.nack 1) (700 * MS), .timeout (1050 * MS)])).core.awareness.score = 0 := by
  decide +kernel
example : (Ex.after (Ex.hProbe ++ [.timeout (1050 * MS)])).core.awareness.score = 1 := by decide +kernel
example : ((Ex.after (Ex.hProbe ++ [.timeout (1050 * MS)])).core.members.get 3).map (fun m => (m.state, m.incarnation)) =
    some (.suspect, 1) := by decide +kernel

-- node 3 refuted in the meantime: it is not suspected
example : ((Ex.after (Ex.hProbe ++ [.packet 103 (Ex.alive 3 2) (800 * MS), .timeout (1050 * MS)])).core.members.get 3).map
    (fun m => (m.state, m.incarnation)) = some (.alive, 2) := by decide +kernel

end Verif.Props
