import Verif.Proof.Service
/-
Facts about acks, histories of outcomes, sends and sequence numbers behind Props/Probe.lean.
-/
namespace Verif.Ep
open Verif Core Spec
variable {I A : Type} [DecidableEq I] [DecidableEq A]
variable {cfg : Cfg I A} {env : Env I A}

/-! ### Acks -/

theorem ackValid_probe {n : Net I A} {seq : Nat} {k : ProbeKind} {src : A} {p : Probe I A}
    (hp : n.probes.get? seq = some p) :
    ackSourceValid n seq (ackKindOf k) src = true ↔ Legitimate p src := by
  have hs : ∀ k : ProbeKind, ackSourceValid n seq (ackKindOf k) src =
      (decide (p.target.addr = src) || (match p.phase with
        | .indirect _ peers _ _ _ => decide (src ∈ peers)
        | .direct _ => false)) := by
    intro k
    cases k <;> (unfold ackSourceValid ackKindOf; rw [hp]; rfl)
  rw [hs]
  unfold Legitimate relaysOf
  rw [eq_comm (a := src)]
  cases p.phase <;> simp

/-- An ack from a legitimate responder of a pending probe. -/
theorem ack_probe {e : Ep I A} (hn : NetOk cfg e.net) {src : A} {seq : Nat} {payload : Bytes} {now : Nat}
    {p : Probe I A} (hp : pending e seq = some p) (hl : Legitimate p src) :
    e.handleAck cfg env src seq payload now =
      e.completeProbeSuccess cfg env seq (decide (p.target.addr = src)) payload now := by
  obtain ⟨a, ha, hk⟩ := hn.pa _ _ hp
  have hv := (ackValid_probe (k := p.kind) (src := src) hp).2 hl
  unfold handleAck
  rw [ha]
  dsimp only
  rw [hk, hv]
  simp only [Bool.not_true, Bool.false_eq_true, ↓reduceIte]
  have : ∀ k : ProbeKind, (match (ackKindOf k : AckKind A) with
      | .forward replyTo =>
        match e.net.forwards.get? seq with
        | none => ({ e with net := { e.net with acks := e.net.acks.erase seq } } : Ep I A)
        | some fwd =>
          if now ≥ fwd.deadline then e
          else
            ({ e with net := { e.net with acks := e.net.acks.erase seq,
                                          forwards := e.net.forwards.erase seq } } : Ep I A).send
              (.packet replyTo (.ack fwd.requesterSeq payload))
      | _ => ({ e with net := { e.net with acks := e.net.acks.erase seq } } : Ep I A).completeProbeSuccess cfg env
                seq (directAck e.net seq src) payload now) =
      ({ e with net := { e.net with acks := e.net.acks.erase seq } } : Ep I A).completeProbeSuccess cfg env
                seq (directAck e.net seq src) payload now := by
    intro k; cases k <;> rfl
  refine (this p.kind).trans ?_
  rw [directAck_eq hp, complete_consumed e seq now _ payload p hp]

theorem ack_step {e : Ep I A} (hr : e.core.lifecycle = .running) (src : A) (seq : Nat) (payload : Bytes) (now : Nat) :
    (e.step cfg env (.packet src (.ack seq payload) now)).1 = e.handleAck cfg env src seq payload now := by
  show e.handlePacket cfg env src (.ack seq payload) now = _
  unfold handlePacket
  rw [if_neg (by simp [hr])]

/-- An ack nobody waits for. -/
theorem ack_ignored {e : Ep I A} (hn : NetOk cfg e.net) {src : A} {seq : Nat} {payload : Bytes} {now : Nat}
    (hp : ∀ p, pending e seq = some p → ¬ Legitimate p src)
    (hf : ∀ f, relaying e seq = some f → f.target = src → f.deadline ≤ now) :
    e.handleAck cfg env src seq payload now = e := by
  unfold handleAck
  split
  · rfl
  · rename_i entry ha
    split
    · rfl
    · rename_i hv
      simp only [Bool.not_eq_true', Bool.not_eq_false] at hv
      rcases hn.ap _ _ ha with h | h
      · obtain ⟨p, hpp⟩ := Option.isSome_iff_exists.1 h
        obtain ⟨a, ha', hk⟩ := hn.pa _ _ hpp
        rw [ha] at ha'; cases ha'
        rw [hk] at hv
        exact absurd ((ackValid_probe hpp).1 hv) (hp p hpp)
      · obtain ⟨f, hff⟩ := Option.isSome_iff_exists.1 h
        obtain ⟨a, ha', hk⟩ := hn.fa _ _ hff
        rw [ha] at ha'; cases ha'
        rw [hk] at hv
        obtain ⟨f', hf', ht⟩ := ackSource_fwd hv
        rw [hff] at hf'; cases hf'
        have hd := hf f hff ht
        have : (match entry.kind with
          | .forward replyTo =>
            match e.net.forwards.get? seq with
            | none => ({ e with net := { e.net with acks := e.net.acks.erase seq } } : Ep I A)
            | some fwd =>
              if now ≥ fwd.deadline then e
              else
                ({ e with net := { e.net with acks := e.net.acks.erase seq,
                                              forwards := e.net.forwards.erase seq } } : Ep I A).send
                  (.packet replyTo (.ack fwd.requesterSeq payload))
          | _ => ({ e with net := { e.net with acks := e.net.acks.erase seq } } : Ep I A).completeProbeSuccess cfg env
                    seq (directAck e.net seq src) payload now) = e := by
          rw [hk, hff]
          dsimp only
          rw [if_pos hd]
        exact this

/-! ### Outcomes over a history -/

theorem outcomes_nil (e : Ep I A) (seq : Nat) : outcomes cfg env e [] seq = queuedOutcomes e seq := by
  unfold outcomes queuedOutcomes
  rw [reported_eq]; rfl

/-- One more call appends what it queued. -/
theorem outcomes_snoc (e : Ep I A) (ops : List (Op I A)) (op : Op I A) (seq : Nat) (new : List (Event I A))
    (h : op ≠ .pollEvent → queuedOutcomes (Ep.run cfg env e (ops ++ [op])) seq =
      queuedOutcomes (Ep.run cfg env e ops) seq ++ new) (hp : op = .pollEvent → new = []) :
    outcomes cfg env e (ops ++ [op]) seq = outcomes cfg env e ops seq ++ new := by
  have hq : ∀ ops, outcomes cfg env e ops seq =
      ((Ep.outs cfg env e ops).filterMap eventOf).filter (isOutcome seq) ++ queuedOutcomes (Ep.run cfg env e ops) seq := by
    intro ops
    unfold outcomes queuedOutcomes
    rw [reported_eq, List.filter_append]
  rw [hq, hq, outs_append]
  simp only [Ep.outs, List.filterMap_append, List.filterMap_cons, List.filterMap_nil, List.filter_append]
  by_cases ho : op = .pollEvent
  · subst ho
    rw [hp rfl, run_snoc]
    have : queuedOutcomes ((Ep.run cfg env e ops).step cfg env .pollEvent).1 seq =
        (Ep.run cfg env e ops).core.events.tail.filter (isOutcome seq) := by
      show ((Ep.run cfg env e ops).pollEvent.1).core.events.filter _ = _
      unfold pollEvent
      cases hev : (Ep.run cfg env e ops).core.events <;> simp [hev]
    rw [this]
    have h2 : eventOf ((Ep.run cfg env e ops).step cfg env .pollEvent).2 = (Ep.run cfg env e ops).core.events.head? := by
      show eventOf (.event (Ep.run cfg env e ops).pollEvent.2) = _
      unfold pollEvent
      cases hev : (Ep.run cfg env e ops).core.events <;> rfl
    rw [h2]
    unfold queuedOutcomes
    cases hev : (Ep.run cfg env e ops).core.events with
    | nil => simp
    | cons ev l => simp [List.filter_cons]; split <;> simp
  · rw [eventOf_step _ _ ho, h ho]
    simp

/-- Any queued outcomes beyond those before come from an outcome in this call. -/
theorem pollEvent_outcomes (e : Ep I A) (seq : Nat) {new : List (Event I A)}
    (h : queuedOutcomes (e.step cfg env .pollEvent).1 seq = queuedOutcomes e seq ++ new) : new = [] := by
  have : (queuedOutcomes (e.step cfg env .pollEvent).1 seq).length ≤ (queuedOutcomes e seq).length := by
    show (e.pollEvent.1.core.events.filter _).length ≤ _
    unfold pollEvent queuedOutcomes
    cases hev : e.core.events with
    | nil => simp [hev]
    | cons ev l => simp only [List.filter_cons]; split <;> simp
  rw [h] at this
  simp only [List.length_append] at this
  exact List.length_eq_zero_iff.1 (by omega)

theorem pollEvent_probes (e : Ep I A) : (e.step cfg env .pollEvent).1.net = e.net := by
  show e.pollEvent.1.net = _
  unfold pollEvent
  split <;> rfl

/-! ### What a call sends -/

/-- What an elementary step may send, apart from leaving. -/
inductive Tx (cfg : Cfg I A) (env : Env I A) (op : Op I A) (a : Ep I A) : Transmit I A → Prop
  | snd (t : Transmit I A) (h : Snd cfg env op a t) : Tx cfg env op a t
  | fan (seq : Nat) (p : Probe I A) (now : Nat) (dst : A) (ho : op = .timeout now)
      (hp : a.net.probes.get? seq = some p) (hf : fitsMtu cfg env (relayRequest cfg seq p) = true) :
      Tx cfg env op a (.packet dst (relayRequest cfg seq p))
  | answer (seq : Nat) (f : Forward A) (payload : Bytes) (now : Nat) (hf : a.net.forwards.get? seq = some f)
      (ho : op = .packet f.target (.ack seq payload) now) (hd : now < f.deadline) :
      Tx cfg env op a (.packet f.replyTo (.ack f.requesterSeq payload))
  | expire (seq : Nat) (f : Forward A) (now : Nat) (hf : a.net.forwards.get? seq = some f)
      (ho : op = .timeout now) (hd : f.deadline ≤ now) :
      Tx cfg env op a (.packet f.replyTo (.nack f.requesterSeq))
  | gossip (dst : A) (now : Nat) (ho : op = .timeout now) (t : Transmit I A)
      (hd : datagram dst (a.drainGossip cfg env).2 = some t) : Tx cfg env op a t

theorem handleNack_transmits (e : Ep I A) (src : A) (seq now : Nat) :
    (e.handleNack src seq now).net.transmits = e.net.transmits := by
  unfold handleNack
  (repeat' split) <;> rfl

theorem discard_transmits (n : Net I A) (seq : Nat) (p : Probe I A) :
    (discardProbe n seq p).transmits = n.transmits := by
  unfold discardProbe
  dsimp only
  split <;> rfl

theorem micro_tx_any {op : Op I A} {late : Bool} {a b : Ep I A} (h : Micro cfg env op late a b) :
    (∃ l, b.net.transmits = a.net.transmits ++ l ∧ ∀ t ∈ l, Tx cfg env op a t) ∨
    (∃ now f, op = .leave now f ∧ a.core.lifecycle = .running ∧ b = a.leaveWith cfg env now f) ∨
    (op = .pollTransmit ∧ b = a.pollTransmit.1) := by
  have nil : b.net.transmits = a.net.transmits →
      (∃ l, b.net.transmits = a.net.transmits ++ l ∧ ∀ t ∈ l, Tx cfg env op a t) ∨
      (∃ now f, op = .leave now f ∧ a.core.lifecycle = .running ∧ b = a.leaveWith cfg env now f) ∨
      (op = .pollTransmit ∧ b = a.pollTransmit.1) :=
    fun h => .inl ⟨[], by rw [h, List.append_nil], by simp⟩
  cases h with
  | core x hx => exact nil rfl
  | aux _ hc hn hf hu => exact nil hn.transmits
  | send t ht => exact .inl ⟨[t], rfl, by simpa using .snd t ht⟩
  | dial id peer d hr hd => exact nil rfl
  | start seq p a hs hr hw hlt => exact nil rfl
  | alloc seq hs => exact nil rfl
  | dispatched seq b hlt => exact nil rfl
  | fail seq p now hp hw hr hlt =>
    refine nil ?_
    rw [terminate_net a seq now p hp, discard_transmits]
  | done seq p direct payload now hp hd hw hr hlt =>
    refine nil ?_
    rw [complete_net a seq now direct payload p hp hd]
  | nack src seq now ho => exact nil (handleNack_transmits _ _ _ _)
  | fan seq p now peers st ho hp hk hph hd hf hl hnd ha hfit hlt =>
    refine .inl ⟨peers.map (fun x => .packet x (relayRequest cfg seq p)), rfl, ?_⟩
    intro t ht
    obtain ⟨x, hx, rfl⟩ := List.mem_map.1 ht
    exact .fan seq p now x ho hp (hfit (by rintro rfl; cases hx))
  | fwd seq src p now ho hs hsrc hl hnew => exact nil rfl
  | fwdAnswer seq f hf payload now ho hd => exact .inl ⟨[_], rfl, by simpa using .answer seq f payload now hf ho hd⟩
  | fwdExpire seq f hf now ho hd => exact .inl ⟨[_], rfl, by simpa using .expire seq f now hf ho hd⟩
  | intent i hr => exact nil rfl
  | intentDial i hr hw => exact nil rfl
  | skipId => exact nil rfl
  | unintent id hw => exact nil rfl
  | retire seq => exact nil rfl
  | gossip targets now ho hr =>
    obtain ⟨ts, h1, _, h3⟩ := sendAll_net (a.drainGossip cfg env).1 targets (a.drainGossip cfg env).2
    refine .inl ⟨ts, by rw [h1, (drainGossip_net a).1], ?_⟩
    intro t ht
    obtain ⟨dst, hd⟩ := h3 t ht
    exact .gossip dst now ho t hd
  | leave now f ho hr => exact .inr (.inl ⟨now, f, ho, hr, rfl⟩)
  | poll ho => exact .inr (.inr ⟨ho, rfl⟩)

theorem micro_tx {op : Op I A} {late : Bool} {a b : Ep I A} (hl : ∀ now f, op ≠ .leave now f)
    (hp : op ≠ .pollTransmit) (h : Micro cfg env op late a b) :
    ∃ l, b.net.transmits = a.net.transmits ++ l ∧ ∀ t ∈ l, Tx cfg env op a t := by
  rcases micro_tx_any h with h | ⟨now, f, ho, _⟩ | ⟨ho, _⟩
  · exact h
  · exact absurd ho (hl now f)
  · exact absurd ho hp

/-- Relays are asked by sending each the request. -/
theorem micro_asked {op : Op I A} {late : Bool} {a b : Ep I A} (h : Micro cfg env op late a b) {seq : Nat}
    {q q' : Probe I A} (hq : a.net.probes.get? seq = some q) (hq' : b.net.probes.get? seq = some q') :
    asked q' = asked q ∨ (∃ now, op = .timeout now ∧
      b.net.transmits = a.net.transmits ++ (asked q').map (fun x => .packet x (relayRequest cfg seq q))) := by
  have same : b.net.probes.get? seq = a.net.probes.get? seq → asked q' = asked q := by
    intro h; rw [hq, hq'] at h; cases h; rfl
  have modif : ∀ (s : Nat) (f : Probe I A → Probe I A), b.net.probes = a.net.probes.modify s f →
      (∀ p, asked (f p) = asked p) → asked q' = asked q := by
    intro s f h hf
    rw [h, Map.get?_modify, hq] at hq'
    split at hq'
    · cases hq'; exact hf q
    · cases hq'; rfl
  have eras : ∀ (s : Nat), b.net.probes = a.net.probes.erase s → asked q' = asked q := by
    intro s h
    rw [h, Map.get?_erase, hq] at hq'
    split at hq'
    · cases hq'
    · cases hq'; rfl
  cases h with
  | core x hx => exact .inl (same rfl)
  | aux _ hc hn hf hu => exact .inl (same (by rw [hn.probes]))
  | send t ht => exact .inl (same rfl)
  | dial id peer d hr hd => exact .inl (same rfl)
  | start s p a hs hr hw hlt =>
    refine .inl ?_
    dsimp only at hq'
    rw [Map.get?_insert, hq] at hq'
    split at hq'
    · rename_i he
      subst he
      rw [(allocSeq_spec hs).2.2.1] at hq; cases hq
    · cases hq'; rfl
  | alloc s hs => exact .inl (same rfl)
  | dispatched s b hlt => exact .inl (modif s (fun p => { p with dispatched := b }) rfl (fun p => rfl))
  | fail s p now hp hw hr hlt => exact .inl (eras s (by rw [terminate_net a s now p hp, discard_probes]))
  | done s p direct payload now hp hd hw hr hlt =>
    exact .inl (eras s (by rw [complete_net a s now direct payload p hp hd]))
  | nack src s now ho =>
    refine .inl ?_
    unfold handleNack at hq'
    split at hq'
    · rw [hq] at hq'; cases hq'; rfl
    · split at hq'
      · rw [hq] at hq'; cases hq'; rfl
      · split at hq'
        · rename_i ex ps nb st d hph
          split at hq'
          · rename_i p hp _ _ _
            dsimp only at hq'
            rw [Map.get?_modify, hq] at hq'
            split at hq'
            · rename_i he
              subst he
              rw [hq] at hp; cases hp
              cases hq'
              unfold asked; rw [hph]
            · cases hq'; rfl
          · rw [hq] at hq'; cases hq'; rfl
        · rw [hq] at hq'; cases hq'; rfl
  | fan s p now peers st ho hp hk hph hd hf hl hnd ha hfit hlt =>
    dsimp only at hq'
    rw [Map.get?_modify, hq] at hq'
    split at hq'
    · rename_i he
      subst he
      rw [hq] at hp; cases hp
      cases hq'
      exact .inr ⟨now, ho, rfl⟩
    · cases hq'; exact .inl rfl
  | fwd s src p now ho hs hsrc hl hnew => exact .inl (same rfl)
  | fwdAnswer s f hf payload now ho hd => exact .inl (same rfl)
  | fwdExpire s f hf now ho hd => exact .inl (same rfl)
  | intent i hr => exact .inl (same rfl)
  | intentDial i hr hw => exact .inl (same rfl)
  | skipId => exact .inl (same rfl)
  | unintent id hw => exact .inl (same rfl)
  | retire s =>
    refine .inl (modif s (fun p => match p.phase with
      | .indirect ex ps nb _ d => { p with phase := .indirect ex ps nb none d }
      | .direct _ => p) rfl (fun p => ?_))
    cases hph : p.phase <;> simp [asked, hph]
  | gossip targets now ho hr =>
    obtain ⟨ts, h1, _, h3⟩ := sendAll_net (a.drainGossip cfg env).1 targets (a.drainGossip cfg env).2
    exact .inl (same (by rw [h1]; dsimp only; rw [(drainGossip_net a).1]))
  | leave now f ho hr =>
    obtain ⟨ts, h1⟩ := leaveWith_net (cfg := cfg) (env := env) a now f hr
    exact .inl (same (by rw [h1]))
  | poll ho => exact .inl (same (by rw [pollTransmit_net]))

/-! ### Sequence numbers -/

omit [DecidableEq I] [DecidableEq A] in
theorem allocLoop_none {n : Net I A} {fuel s : Nat} (h : allocLoop n fuel s = none) :
    ∀ i, i < fuel → (s + 1 + i) % 2 ^ 32 = 0 ∨ seqInUse n ((s + 1 + i) % 2 ^ 32) = true := by
  induction fuel generalizing s with
  | zero => intro i hi; omega
  | succ fuel ih =>
    rw [allocLoop] at h
    split at h
    · rename_i hc
      intro i hi
      cases i with
      | zero => exact hc
      | succ i =>
        have := ih h i (by omega)
        have he : ((s + 1) % 2 ^ 32 + 1 + i) % 2 ^ 32 = (s + 1 + (i + 1)) % 2 ^ 32 := by omega
        rw [he] at this
        exact this
    · cases h

omit [DecidableEq I] [DecidableEq A] in
/-- The allocator finds a number unless almost all are outstanding. -/
theorem allocSeq_exists {n : Net I A} (hn : NetOk cfg n) (h : n.probes.length + n.forwards.length < 2 ^ 32 - 1) :
    ∃ s, allocSeq n = some s := by
  cases ha : allocSeq n with
  | some s => exact ⟨s, rfl⟩
  | none =>
    exfalso
    have hnone := allocLoop_none ha
    have hal : ∀ k, k ∈ n.acks.keys → k ∈ n.probes.keys ++ n.forwards.keys := by
      intro k hk
      obtain ⟨a, ha⟩ := Option.isSome_iff_exists.1 (Map.mem_keys_iff.1 hk)
      rw [List.mem_append, Map.mem_keys_iff, Map.mem_keys_iff]
      exact hn.ap _ _ ha
    have hlen : n.acks.length ≤ n.probes.length + n.forwards.length := by
      have h1 := (List.subperm_of_subset hn.an hal).length_le
      simpa [Map.keys] using h1
    let N := n.probes.length + n.forwards.length + 2
    have hN : N ≤ 2 ^ 32 := by show n.probes.length + n.forwards.length + 2 ≤ _; omega
    let l := (List.range N).map (fun i => (n.nextSeq + 1 + i) % 2 ^ 32)
    have hl : l.Nodup := by
      refine List.Nodup.map_on ?_ List.nodup_range
      intro a ha b hb hab
      simp only [List.mem_range] at ha hb
      have hab' : (n.nextSeq + 1 + a) % 2 ^ 32 = (n.nextSeq + 1 + b) % 2 ^ 32 := hab
      omega
    have hsub : l ⊆ 0 :: (n.probes.keys ++ n.forwards.keys) := by
      intro x hx
      obtain ⟨i, hi, rfl⟩ := List.mem_map.1 hx
      simp only [List.mem_range] at hi
      have := hnone i (by show i < _; have : i < n.probes.length + n.forwards.length + 2 := hi; omega)
      rcases this with h0 | h0
      · rw [h0]; exact List.mem_cons_self ..
      · refine List.mem_cons_of_mem _ ?_
        simp only [seqInUse, Map.contains, Bool.or_eq_true] at h0
        rcases h0 with (h0 | h0) | h0
        · exact List.mem_append_left _ (Map.mem_keys_iff.2 h0)
        · exact List.mem_append_right _ (Map.mem_keys_iff.2 h0)
        · exact hal _ (Map.mem_keys_iff.2 h0)
    have := (List.subperm_of_subset hl hsub).length_le
    simp only [l, List.length_map, List.length_range, List.length_cons, List.length_append, Map.keys] at this
    omega

/-- A call ends the ping pending under `seq` with one outcome, or leaves it pending and reports none. -/
theorem ping_step {e : Ep I A} (h : Reachable cfg env e) (op : Op I A) {seq : Nat} {p : Probe I A}
    (hp : pending e seq = some p) (hk : p.kind = .ping) :
    (∃ p', pending (e.step cfg env op).1 seq = some p' ∧ SameProbe p p' ∧
      (op ≠ .pollEvent → queuedOutcomes (e.step cfg env op).1 seq = queuedOutcomes e seq)) ∨
    (∃ ev, IsOutcomeOf seq p ev ∧ op ≠ .pollEvent ∧
      queuedOutcomes (e.step cfg env op).1 seq = queuedOutcomes e seq ++ [ev]) := by
  by_cases ho : op = .pollEvent
  · subst ho
    left
    refine ⟨p, ?_, .refl p, fun h => absurd rfl h⟩
    unfold pending; rw [pollEvent_probes]; exact hp
  · obtain ⟨new, hq, hf⟩ := step_fate h op ho seq
    generalize pending (e.step cfg env op).1 seq = o' at hf
    cases hf with
    | kept q q' hpe hs =>
      rw [hp] at hpe; cases hpe
      exact .inl ⟨q', rfl, hs.toSameProbe, fun _ => by rw [hq, List.append_nil]⟩
    | ended _ _ hpe hn =>
      rcases hpe with ⟨hpe, _⟩ | ⟨q, hpe, he⟩
      · rw [hp] at hpe; cases hpe
      · rw [hp] at hpe; cases hpe
        right
        rcases he with ⟨now, hw, rfl⟩ | ⟨direct, pl, now, hd, hw, rfl⟩
        · refine ⟨.pingFailed seq p.target, .inr rfl, ho, ?_⟩
          rw [hq]; unfold failEvent; rw [hk]
        · refine ⟨.pingCompleted seq p.target (now - p.sentAt) pl, .inl ⟨_, _, rfl⟩, ho, ?_⟩
          rw [hq]; unfold doneEvent; rw [if_pos (.inl hk)]

end Verif.Ep
