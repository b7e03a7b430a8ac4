import Verif.Proof.UserBroadcast
/- C17-C21: the gossip retransmit queue and the ranked user queue. -/
namespace Verif.Props
open Spec Map BQueue

variable {Id B Msg : Type} [DecidableEq Id] {ops : BroadcastOps Id B Msg}

/-- Concrete broadcasts for the examples: `(node, size)`. -/
def exOps : BroadcastOps Nat (Nat × Nat) (Nat × Nat) where
  id b := if b.1 = 0 then none else some b.1
  invalidates _ _ := false
  message b := b
  encodedLen m := min m.2 U64_MAX
  isUnique _ := false

theorem exOps_small (m : Nat × Nat) : exOps.encodedLen m ≤ U64_MAX := Nat.min_le_right _ _

/-- A history used by the examples: two claims about node 7, one about node 8, an anonymous one,
drains of various sizes. -/
def exHist : List (QOp (Nat × Nat)) :=
  [.queue (7, 10), .queue (8, 20), .take 100 2 15, .queue (7, 12), .queue (0, 5), .take 100 2 50,
   .takeOne 100 6, .prune 2]

/-- C17. After any history of calls the queue never holds two broadcasts with the same identity, and
the identity index finds exactly the queued broadcasts that have an identity. -/
theorem C17_one_claim_per_identity (hU : ∀ m, ops.encodedLen m ≤ U64_MAX) (mult : Nat) (h : List (QOp B))
    (hb : (QOp.queued h).length ≤ U64_MAX) :
    let s := (QRun.run ops mult h : QRun Id B).s
    (s.q.filterMap (fun x => ops.id x.broadcast)).Nodup ∧
      ∀ i x, s.m.get? i = some x ↔ x ∈ s.q ∧ ops.id x.broadcast = some i :=
  ⟨nodup_bids (ledger hU mult h hb).inv, (ledger hU mult h hb).inv.mq⟩

example : (QOp.queued exHist).length ≤ U64_MAX ∧
    ((QRun.run exOps 4 exHist).s.q.filterMap (fun x => exOps.id x.broadcast)) = [8, 7] ∧
    ((QRun.run exOps 4 (exHist.take 6)).s.q.map (fun x => x.broadcast)) = [(8, 20), (7, 12), (0, 5)] := by
  decide

/-- C17. Queueing a claim about node `i` after any history: afterwards the new claim is the only queued
one about `i`, not yet transmitted; a notification fires exactly for the older claims about `i`; every
other queued broadcast is kept unchanged. -/
theorem C17_newest_replaces_older (hU : ∀ m, ops.encodedLen m ≤ U64_MAX) (mult : Nat) (h : List (QOp B))
    (b : B) (i : Id) (hi : ops.id b = some i) (hb : (QOp.queued (h ++ [.queue b])).length ≤ U64_MAX) :
    let r : QRun Id B := QRun.run ops mult h
    let r' : QRun Id B := QRun.run ops mult (h ++ [.queue b])
    ∃ new fin, new.broadcast = b ∧ new.transmits = 0 ∧
      r'.finished = r.finished ++ fin ∧
      (∀ x, x ∈ fin ↔ x ∈ r.s.q ∧ ops.id x.broadcast = some i) ∧
      (∀ x, x ∈ r'.s.q ↔ x = new ∨ (x ∈ r.s.q ∧ ops.id x.broadcast ≠ some i)) := by
  have hb' := Nat.le_trans (queued_length_append_le h (.queue b)) hb
  have L := ledger (ops := ops) hU mult h hb'
  have hlt : (QRun.run ops mult h : QRun Id B).s.calls < U64_MAX := by
    rw [queued_append] at hb; simp only [List.length_append, List.length_singleton] at hb
    rw [L.calls]; omega
  obtain ⟨hinv, hc, hm, hg, lb, rest, p1, p2, e1, e2, e3, e4, e5⟩ :=
    L.inv.queueBroadcast b (Nat.lt_of_le_of_lt L.gen hlt)
  rw [hi] at e5
  refine ⟨lb, _, e3, e2, by rw [run_concat]; rfl, e5, ?_⟩
  intro x
  rw [run_concat]
  simp only [QRun.step]
  have hnd : (QRun.run ops mult h : QRun Id B).s.q.Nodup := by
    have := L.inv.ids; rw [List.Nodup, List.pairwise_map] at this
    exact this.imp (fun hne he => hne (by rw [he]))
  rw [p1.mem_iff, List.mem_cons]
  refine or_congr Iff.rfl ⟨fun hx => ?_, fun ⟨hx, hne⟩ => ?_⟩
  · have hx' : x ∈ (QRun.run ops mult h : QRun Id B).s.q := p2.mem_iff.2 (by simp [hx])
    refine ⟨hx', fun he => ?_⟩
    have := (e5 x).2 ⟨hx', he⟩
    have hnd2 := p2.nodup_iff.1 hnd
    exact (List.nodup_append.1 hnd2).2.2 x this x hx rfl
  · have := p2.mem_iff.1 hx
    rw [List.mem_append] at this
    rcases this with h1 | h1
    · exact absurd ((e5 x).1 h1).2 hne
    · exact h1

example : exOps.id (7, 12) = some 7 ∧
    (QOp.queued (exHist.take 3 ++ [.queue (7, 12)])).length ≤ U64_MAX ∧
    ((QRun.run exOps 4 (exHist.take 3)).s.q.map (fun x => (x.broadcast, x.transmits))) =
      [((8, 20), 0), ((7, 10), 1)] ∧
    ((QRun.run exOps 4 (exHist.take 4)).s.q.map (fun x => (x.broadcast, x.transmits))) =
      [((8, 20), 0), ((7, 12), 0)] := by decide

/-- C17. A broadcast without identity removes exactly the queued broadcasts it declares it
invalidates (none when it is unique). -/
theorem C17_anonymous_invalidation (hU : ∀ m, ops.encodedLen m ≤ U64_MAX) (mult : Nat)
    (h : List (QOp B)) (b : B) (hi : ops.id b = none)
    (hb : (QOp.queued (h ++ [.queue b])).length ≤ U64_MAX) :
    let r : QRun Id B := QRun.run ops mult h
    let r' : QRun Id B := QRun.run ops mult (h ++ [.queue b])
    ∃ new rest fin, new.broadcast = b ∧ new.transmits = 0 ∧ r'.finished = r.finished ++ fin ∧
      r'.s.q.Perm (new :: rest) ∧ r.s.q.Perm (fin ++ rest) ∧
      (∀ x, x ∈ fin ↔ x ∈ r.s.q ∧ ops.isUnique b = false ∧ ops.invalidates b x.broadcast = true) := by
  have hb' := Nat.le_trans (queued_length_append_le h (.queue b)) hb
  have L := ledger (ops := ops) hU mult h hb'
  have hlt : (QRun.run ops mult h : QRun Id B).s.calls < U64_MAX := by
    rw [queued_append] at hb; simp only [List.length_append, List.length_singleton] at hb
    rw [L.calls]; omega
  obtain ⟨hinv, hc, hm, hg, lb, rest, p1, p2, e1, e2, e3, e4, e5⟩ :=
    L.inv.queueBroadcast b (Nat.lt_of_le_of_lt L.gen hlt)
  rw [hi] at e5
  rw [run_concat]
  exact ⟨lb, rest, _, e3, e2, rfl, p1, p2, e5⟩

example : exOps.id (0, 5) = none ∧ (QOp.queued (exHist.take 4 ++ [.queue (0, 5)])).length ≤ U64_MAX := by
  decide

/-- The retransmit limit is `mult · ⌈log₁₀(n+1)⌉`: the ceiling of the logarithm is the least exponent
whose power of ten reaches `n + 1`. -/
theorem C18_retransmit_limit (mult n : Nat) :
    ∃ k, retransmitLimit mult n = mult * k ∧ n + 1 ≤ 10 ^ k ∧ ∀ j, n + 1 ≤ 10 ^ j → k ≤ j := by
  have key : ∀ (m fuel k p : Nat), p = 10 ^ k → m ≤ p * 10 ^ fuel → (∀ j, m ≤ 10 ^ j → k ≤ j) →
      m ≤ 10 ^ (ceilLog10.go m fuel k p) ∧ ∀ j, m ≤ 10 ^ j → ceilLog10.go m fuel k p ≤ j := by
    intro m fuel
    induction fuel with
    | zero => intro k p hp hf hk; subst hp; simp only [ceilLog10.go]; exact ⟨by simpa using hf, hk⟩
    | succ fuel ih =>
      intro k p hp hf hk
      simp only [ceilLog10.go]
      split
      · rename_i h; subst hp; exact ⟨h, hk⟩
      · rename_i h
        refine ih (k + 1) (p * 10) (by rw [hp, Nat.pow_succ]) ?_ ?_
        · rw [Nat.mul_assoc, ← Nat.pow_succ']; exact hf
        · intro j hj
          have := hk j hj
          rcases Nat.lt_or_ge k j with h1 | h1
          · exact h1
          · have : j = k := by omega
            subst this; subst hp; exact absurd hj h
  have hlt : ∀ m, m ≤ 10 ^ m := fun m => Nat.le_of_lt (Nat.lt_pow_self (by omega))
  obtain ⟨h1, h2⟩ := key (n + 1) (n + 1) 0 1 rfl (by simpa using hlt (n + 1)) (by intros; omega)
  exact ⟨_, rfl, h1, h2⟩

example : retransmitLimit 4 1 = 4 ∧ retransmitLimit 4 9 = 4 ∧ retransmitLimit 4 10 = 8 ∧
    retransmitLimit 4 0 = 0 := by decide

/-- C18. Every broadcast ever queued (number `t`, in queueing order) is, after any history, either
still queued, once, or has had its completion notification fired, once; never both. -/
theorem C18_finishes_exactly_once (hU : ∀ m, ops.encodedLen m ≤ U64_MAX) (mult : Nat) (h : List (QOp B))
    (hb : (QOp.queued h).length ≤ U64_MAX) (t : Nat) (ht : t < (QOp.queued h).length) :
    let r : QRun Id B := QRun.run ops mult h
    ((r.finished.map LB.tok).count t = 1 ∧ (r.s.q.map LB.tok).count t = 0) ∨
      ((r.finished.map LB.tok).count t = 0 ∧ (r.s.q.map LB.tok).count t = 1) := by
  have L := ledger (ops := ops) hU mult h hb
  have := L.once t
  rw [if_pos (by rw [L.calls]; exact ht)] at this
  simp only [cnt] at this
  simp only
  omega

example : 1 < (QOp.queued exHist).length ∧
    ((QRun.run exOps 1 exHist).finished.map LB.tok) = [0, 3] ∧
    ((QRun.run exOps 1 exHist).s.q.map LB.tok) = [1, 2] := by decide

/-- C18. Everything in the queue, handed out or notified is a broadcast some `queue` call supplied:
broadcast number `t` is the `t`-th one queued. -/
theorem C18_log_is_faithful (hU : ∀ m, ops.encodedLen m ≤ U64_MAX) (mult : Nat) (h : List (QOp B))
    (hb : (QOp.queued h).length ≤ U64_MAX) (x : LB B) :
    let r : QRun Id B := QRun.run ops mult h
    (x ∈ r.s.q ∨ x ∈ r.handed ∨ x ∈ r.finished) → (QOp.queued h)[x.tok]? = some x.broadcast :=
  (ledger (ops := ops) hU mult h hb).orig x

/-- C18. If every drain of the history saw a cluster whose retransmit limit is at most `K`, no
broadcast is ever handed out more than `max 1 K` times. -/
theorem C18_bounded_retransmit (hU : ∀ m, ops.encodedLen m ≤ U64_MAX) (mult K : Nat) (h : List (QOp B))
    (hb : (QOp.queued h).length ≤ U64_MAX) (hK : ∀ n ∈ QOp.sizes h, retransmitLimit mult n ≤ K) (t : Nat) :
    ((QRun.run ops mult h : QRun Id B).handed.map LB.tok).count t ≤ max 1 K :=
  (bounded hU mult K h hb hK).all t

example : (∀ n ∈ QOp.sizes exHist, retransmitLimit 1 n ≤ 3) ∧
    ((QRun.run exOps 1 exHist).handed.map LB.tok) = [0, 1, 2, 3, 3] := by decide

/-- C18. A queued broadcast's transmit counter is the number of times it has been handed out. -/
theorem C18_counter_counts_handouts (hU : ∀ m, ops.encodedLen m ≤ U64_MAX) (mult : Nat)
    (h : List (QOp B)) (hb : (QOp.queued h).length ≤ U64_MAX) :
    let r : QRun Id B := QRun.run ops mult h
    ∀ x ∈ r.s.q, (r.handed.map LB.tok).count x.tok = x.transmits :=
  (ledger (ops := ops) hU mult h hb).hand

/-- C18. A drain completes a broadcast exactly when this hand-out brings it to the retransmit limit of
the current cluster size, and otherwise keeps it with its counter raised by one. -/
theorem C18_drain_completes_at_limit (hU : ∀ m, ops.encodedLen m ≤ U64_MAX) (mult : Nat)
    (h : List (QOp B)) (hb : (QOp.queued h).length ≤ U64_MAX) (n overhead limit : Nat) :
    let s := (QRun.run ops mult h : QRun Id B).s
    let d := s.takeMeasured ops n overhead limit
    d.finished = d.sent.filter (fun x => retransmitLimit mult n ≤ x.transmits + 1) ∧
      ∃ rest, s.q.Perm (d.sent ++ rest) ∧
        d.s.q.Perm ((d.sent.filter (fun x => x.transmits + 1 < retransmitLimit mult n)).map
          (fun x => { x with transmits := x.transmits + 1 }) ++ rest) := by
  have L := ledger (ops := ops) hU mult h hb
  have hg : (QRun.run ops mult h : QRun Id B).s.idGen ≤ U64_MAX := by
    have := L.gen; have h2 := L.calls; omega
  obtain ⟨D, _⟩ := takeMeasured_spec hU L.inv hg n overhead limit
  simp only
  refine ⟨by rw [D.fin, L.mult], ?_⟩
  obtain ⟨rest, p1, p2⟩ := D.split
  refine ⟨rest, p1, ?_⟩
  rw [L.mult] at p2
  have e : (fun x : LB B => !decide (retransmitLimit mult n ≤ x.transmits + 1)) =
      fun x => decide (x.transmits + 1 < retransmitLimit mult n) := by
    funext x
    by_cases hx : retransmitLimit mult n ≤ x.transmits + 1
    · simp [hx, Nat.not_lt.2 hx]
    · simp [hx, Nat.not_le.1 hx]
  rw [e] at p2
  exact p2

example : ((QRun.run exOps 1 (exHist.take 5)).s.takeMeasured exOps 100 2 50).sent.map
      (fun x => (x.broadcast, x.transmits)) = [((8, 20), 0), ((7, 12), 0), ((0, 5), 0)] ∧
    ((QRun.run exOps 1 (exHist.take 5)).s.takeMeasured exOps 5 2 50).finished.length = 3 := by decide

/-- C18. Pruning to `k` after any history keeps the `k` preferred entries (all of them when there are no
more than `k`) and notifies exactly the others. -/
theorem C18_prune (hU : ∀ m, ops.encodedLen m ≤ U64_MAX) (mult : Nat) (h : List (QOp B))
    (hb : (QOp.queued h).length ≤ U64_MAX) (k : Nat) :
    let s := (QRun.run ops mult h : QRun Id B).s
    let r := s.prune ops k
    r.1.q.length = min k s.q.length ∧ s.q.Perm (r.2 ++ r.1.q) ∧
      ∀ x ∈ r.1.q, ∀ y ∈ r.2, Preferred x y := by
  have L := ledger (ops := ops) hU mult h hb
  obtain ⟨_, _, _, _, hp, ht⟩ := prune_spec L.inv k
  have hs := L.inv.sorted
  have hnd : (QRun.run ops mult h : QRun Id B).s.q.Nodup := by
    have := L.inv.ids; rw [List.Nodup, List.pairwise_map] at this
    exact this.imp (fun hne he => hne (by rw [he]))
  simp only
  refine ⟨by rw [ht, List.length_take], hp, ?_⟩
  intro x hx y hy
  have hpn := hp.nodup_iff.1 hnd
  have hyn : y ∉ (QRun.run ops mult h : QRun Id B).s.q.take k := by
    rw [← ht]; intro h1
    exact (List.nodup_append.1 hpn).2.2 y hy y h1 rfl
  have hyq := hp.mem_iff.2 (List.mem_append_left _ hy)
  rw [ht] at hx
  have e := List.take_append_drop k (QRun.run ops mult h : QRun Id B).s.q
  rw [← e] at hs hyq
  rcases List.mem_append.1 hyq with h1 | h1
  · exact absurd h1 hyn
  · exact (LB.before_iff x y).1 ((List.pairwise_append.1 hs).2.2 x hx y h1)

example : ((QRun.run exOps 4 (exHist.take 6)).s.prune exOps 1).1.q.map LB.broadcast = [(8, 20)] := by decide

/-- C19. A drain reports exactly the encoded sizes plus per-message overhead of what it returns, and
that total is within the budget. -/
theorem C19_budget (hU : ∀ m, ops.encodedLen m ≤ U64_MAX) (mult : Nat) (h : List (QOp B))
    (hb : (QOp.queued h).length ≤ U64_MAX) (n overhead limit : Nat) :
    let d := (QRun.run ops mult h : QRun Id B).s.takeMeasured ops n overhead limit
    d.used = (d.sent.map (fun x => ops.encodedLen (ops.message x.broadcast) + overhead)).sum ∧
      d.used ≤ limit := by
  have L := ledger (ops := ops) hU mult h hb
  have hg : (QRun.run ops mult h : QRun Id B).s.idGen ≤ U64_MAX := by
    have := L.gen; have h2 := L.calls; omega
  obtain ⟨D, _⟩ := takeMeasured_spec hU L.inv hg n overhead limit
  refine ⟨?_, D.bound⟩
  obtain ⟨rest, p1, _⟩ := D.split
  rw [D.used, charge]
  congr 1
  apply List.map_congr_left
  intro x hx
  have : x ∈ (QRun.run ops mult h : QRun Id B).s.q := p1.mem_iff.2 (by simp [hx])
  rw [← L.inv.len x this]; rfl

example : ((QRun.run exOps 1 (exHist.take 5)).s.takeMeasured exOps 100 2 30).used = 29 := by decide

/-- C19. The single-message drain returns at most one message, within the budget. -/
theorem C19_budget_one (hU : ∀ m, ops.encodedLen m ≤ U64_MAX) (mult : Nat) (h : List (QOp B))
    (hb : (QOp.queued h).length ≤ U64_MAX) (n limit : Nat) :
    let d := (QRun.run ops mult h : QRun Id B).s.takeOne ops n limit
    d.sent.length ≤ 1 ∧ ∀ x ∈ d.sent, ops.encodedLen (ops.message x.broadcast) ≤ limit := by
  have L := ledger (ops := ops) hU mult h hb
  have hg : (QRun.run ops mult h : QRun Id B).s.idGen ≤ U64_MAX := by
    have := L.gen; have h2 := L.calls; omega
  obtain ⟨D, h1⟩ := takeOne_spec hU L.inv hg n limit
  simp only
  rcases h1 with ⟨e, _⟩ | ⟨x, e, hx, hl, _⟩
  · rw [e]; simp
  · rw [e]
    refine ⟨by simp, fun y hy => ?_⟩
    have : y = x := by simpa using hy
    subst this
    rw [← L.inv.len y hx]; exact hl

example : ((QRun.run exOps 4 (exHist.take 5)).s.takeOne exOps 100 6).sent.map LB.broadcast = [(0, 5)] := by
  decide

/-- C20. A drain returns what the greedy policy of `Spec.Greedy` prescribes: repeatedly the preferred
entry (least transmitted, then largest, then newest) among those that still fit. -/
theorem C20_greedy (hU : ∀ m, ops.encodedLen m ≤ U64_MAX) (mult : Nat) (h : List (QOp B))
    (hb : (QOp.queued h).length ≤ U64_MAX) (n overhead limit : Nat) :
    let s := (QRun.run ops mult h : QRun Id B).s
    Greedy overhead limit s.q 0 (s.takeMeasured ops n overhead limit).sent := by
  have L := ledger (ops := ops) hU mult h hb
  have hg : (QRun.run ops mult h : QRun Id B).s.idGen ≤ U64_MAX := by
    have := L.gen; have h2 := L.calls; omega
  exact (takeMeasured_spec hU L.inv hg n overhead limit).2

/-- C20. Consequences in plain terms, for any drain after any history: no broadcast is handed out
twice; whenever `x` is handed out, every broadcast handed out later or not at all that would have
fitted in its place has been transmitted at least as often; a broadcast that is not handed out does
not fit in the space left over; and if some queued broadcast fits the budget, something is handed
out. -/
theorem C20_fair_and_maximal (hU : ∀ m, ops.encodedLen m ≤ U64_MAX) (mult : Nat) (h : List (QOp B))
    (hb : (QOp.queued h).length ≤ U64_MAX) (n overhead limit : Nat) :
    let s := (QRun.run ops mult h : QRun Id B).s
    let d := s.takeMeasured ops n overhead limit
    (d.sent.map LB.tok).Nodup ∧
      (∀ pre x post, d.sent = pre ++ x :: post → ∀ y ∈ s.q, y.tok ∉ pre.map LB.tok →
        charge overhead pre + (y.msgLen + overhead) ≤ limit → x.transmits ≤ y.transmits) ∧
      (∀ y ∈ s.q, y ∉ d.sent → limit < d.used + (y.msgLen + overhead)) ∧
      ((∃ y ∈ s.q, y.msgLen + overhead ≤ limit) → d.sent ≠ []) := by
  have L := ledger (ops := ops) hU mult h hb
  have hg : (QRun.run ops mult h : QRun Id B).s.idGen ≤ U64_MAX := by
    have := L.gen; have h2 := L.calls; omega
  obtain ⟨D, G⟩ := takeMeasured_spec hU L.inv hg n overhead limit
  simp only
  refine ⟨?_, ?_, ?_, ?_⟩
  · rw [List.nodup_iff_count]
    intro t
    obtain ⟨rest, p1, _⟩ := D.split
    have := L.tok_inj t
    rw [cnt_perm p1, cnt_append] at this
    simp only [cnt] at this; omega
  · intro pre x post e y hy hn hf
    obtain ⟨rest, p, _, hbest⟩ := Greedy.pref G pre x post e
    have := p.mem_iff.1 hy
    rw [List.mem_append, List.mem_cons] at this
    rcases this with h1 | rfl | h1
    · exact absurd (List.mem_map.2 ⟨y, h1, rfl⟩) hn
    · exact Nat.le_refl _
    · have := hbest y h1 (by rw [Nat.zero_add]; exact hf)
      simp only [Preferred, Entry.transmits] at this
      omega
  · intro y hy hn
    obtain ⟨rest, p, hr⟩ := Greedy.rest G
    have := p.mem_iff.1 hy
    rw [List.mem_append] at this
    rcases this with h1 | h1
    · exact absurd h1 hn
    · have := hr y h1
      rw [D.used]; rw [Nat.zero_add] at this; exact this
  · rintro ⟨y, hy, hf⟩ e
    rw [e] at G
    cases G with
    | stop hs => have := hs y hy; simp only [Entry.size] at this; omega

example : (∃ y ∈ (QRun.run exOps 4 (exHist.take 5)).s.q, y.msgLen + 2 ≤ 30) ∧
    ((QRun.run exOps 4 (exHist.take 5)).s.takeMeasured exOps 100 2 30).sent.map LB.broadcast =
      [(8, 20), (0, 5)] := by decide

/-- C20. The single-message drain hands out the preferred entry among those that fit, and nothing only
when none fits; the peek used to size a lone packet announces the size of exactly that entry. -/
theorem C20_take_one (hU : ∀ m, ops.encodedLen m ≤ U64_MAX) (mult : Nat) (h : List (QOp B))
    (hb : (QOp.queued h).length ≤ U64_MAX) (n limit : Nat) :
    let s := (QRun.run ops mult h : QRun Id B).s
    let d := s.takeOne ops n limit
    ((d.sent = [] ∧ s.peekFirstSendable limit = none ∧ ∀ y ∈ s.q, limit < y.msgLen) ∨
      ∃ x, d.sent = [x] ∧ x ∈ s.q ∧ s.peekFirstSendable limit = some x.msgLen ∧ x.msgLen ≤ limit ∧
        ∀ y ∈ s.q, y ≠ x → y.msgLen ≤ limit → Preferred x y) := by
  have L := ledger (ops := ops) hU mult h hb
  have hg : (QRun.run ops mult h : QRun Id B).s.idGen ≤ U64_MAX := by
    have := L.gen; have h2 := L.calls; omega
  obtain ⟨_, h1⟩ := takeOne_spec hU L.inv hg n limit
  have hs := L.inv.sorted
  revert hs h1
  simp only
  generalize (QRun.run ops mult h : QRun Id B).s = s
  rintro (⟨e, hn⟩ | ⟨x, e, hx, hl, hp⟩) hs
  · refine .inl ⟨e, ?_, hn⟩
    simp only [peekFirstSendable, Option.map_eq_none_iff, List.find?_eq_none]
    intro y hy; have := hn y hy; simp; omega
  · refine .inr ⟨x, e, hx, ?_, hl, hp⟩
    simp only [peekFirstSendable]
    cases hf : s.q.find? (fun x => decide (x.msgLen ≤ limit)) with
    | none =>
      have := List.find?_eq_none.1 hf x hx
      simp at this; omega
    | some z =>
      have hz := List.mem_of_find?_eq_some hf
      have hzl : z.msgLen ≤ limit := by simpa using List.find?_some hf
      by_cases hzx : z = x
      · rw [hzx]; rfl
      · exfalso
        have h2 := hp z hz hzx hzl
        rw [List.find?_eq_some_iff_append] at hf
        obtain ⟨_, as, bs, e1, e2⟩ := hf
        rw [e1] at hx hs
        rcases List.mem_append.1 hx with h3 | h3
        · have := e2 x h3; simp at this; omega
        · rcases List.mem_cons.1 h3 with h3 | h3
          · exact hzx h3.symm
          · have := (List.pairwise_cons.1 (List.pairwise_append.1 hs).2.1).1 x h3
            rw [LB.before_iff] at this
            simp only [Preferred] at this h2
            omega

example : (QRun.run exOps 4 (exHist.take 5)).s.peekFirstSendable 6 = some 5 := by decide

/-! ### User broadcasts -/

/-- One call on the ranked user queue. -/
inductive UOp (B : Type) where
  | queue (rank : Nat) (b : B)
  | take (numNodes overhead limit : Nat)
  | reset

/-- Runs a history of calls; `none` would be a panic. -/
def UOp.run (ops : BroadcastOps Id B Msg) : UserBroadcasts Id B → List (UOp B) → Option (UserBroadcasts Id B)
  | u, [] => some u
  | u, .queue r b :: h =>
    match u.queueRanked ops r b with
    | none => none
    | some (u', _) => UOp.run ops u' h
  | u, .take n o l :: h => UOp.run ops (u.takeMeasured ops n o l).1 h
  | u, .reset :: h => UOp.run ops u.reset.1 h

theorem uop_run (hU : ∀ m, ops.encodedLen m ≤ U64_MAX) (h : List (UOp B)) (u : UserBroadcasts Id B) (k : Nat)
    (hn : 0 < u.tiers.length) (hk : k + h.length ≤ U64_MAX) (ht : ∀ t ∈ u.tiers, TierOk ops k t) :
    ∃ u', UOp.run ops u h = some u' ∧ u'.tiers.length = u.tiers.length ∧
      ∀ t ∈ u'.tiers, TierOk ops U64_MAX t := by
  induction h generalizing u k with
  | nil => exact ⟨u, rfl, rfl, fun t h => (ht t h).mono (by simpa using hk)⟩
  | cons o h ih =>
    simp only [List.length_cons] at hk
    cases o with
    | queue r b =>
      have hi : min r (u.tiers.length - 1) < u.tiers.length := by omega
      simp only [UOp.run, UserBroadcasts.queueRanked, List.getElem?_eq_getElem hi]
      have htt := ht _ (List.getElem_mem hi)
      obtain ⟨hinv, hc, hm, hg, _⟩ := htt.inv.queueBroadcast b (by
        have := htt.gen; have := htt.calls; omega)
      obtain ⟨u', e1, e2, e3⟩ := ih (UserBroadcasts.mk (u.tiers.set (min r (u.tiers.length - 1))
          ((u.tiers[min r (u.tiers.length - 1)]).queueBroadcast ops b).1)) (k + 1) (by simpa using hn) (by omega) (by
        intro t h1
        rcases List.mem_or_eq_of_mem_set h1 with h1 | h1
        · exact (ht t h1).mono (by omega)
        · subst h1
          refine ⟨hinv, ?_, ?_⟩
          · have := htt.gen; omega
          · have := htt.calls; omega)
      exact ⟨u', e1, by simpa using e2, e3⟩
    | take n ov l =>
      obtain ⟨h1, h2, _⟩ := UserBroadcasts.takeLoop_spec hU n ov l k (by omega) u.tiers 0 ht (Nat.zero_le _)
      simp only [UOp.run, UserBroadcasts.takeMeasured]
      obtain ⟨u', e1, e2, e3⟩ := ih { tiers := (UserBroadcasts.takeLoop ops n ov l u.tiers 0).1 } k
        (by simp only [h2]; exact hn) (by omega) h1
      exact ⟨u', e1, by rw [e2]; exact h2, e3⟩
    | reset =>
      simp only [UOp.run]
      obtain ⟨u', e1, e2, e3⟩ := ih u.reset.1 k (by simpa [UserBroadcasts.reset] using hn) (by omega) (by
        intro t h1
        simp only [UserBroadcasts.reset, List.mem_map] at h1
        obtain ⟨t', h2, rfl⟩ := h1
        have h3 := ht t' h2
        exact ⟨(reset_spec h3.inv).1, by simp [BQueue.reset], h3.calls⟩)
      exact ⟨u', e1, by simpa [UserBroadcasts.reset] using e2, e3⟩

theorem user_run (hU : ∀ m, ops.encodedLen m ≤ U64_MAX) (tiers mult : Nat) (hn : 0 < tiers)
    (h : List (UOp B)) (hk : h.length ≤ U64_MAX) :
    ∃ u, UOp.run ops (UserBroadcasts.new tiers mult : UserBroadcasts Id B) h = some u ∧
      u.tiers.length = tiers ∧ ∀ t ∈ u.tiers, TierOk ops U64_MAX t := by
  obtain ⟨u, e1, e2, e3⟩ := uop_run hU h (UserBroadcasts.new tiers mult) 0
    (by simpa [UserBroadcasts.new] using hn) (by omega) (by
      intro t ht
      simp only [UserBroadcasts.new, List.mem_replicate] at ht
      rw [ht.2]
      exact ⟨inv_new mult, Nat.le_refl _, Nat.le_refl _⟩)
  exact ⟨u, e1, by simpa [UserBroadcasts.new] using e2, e3⟩

/-- C21. No history makes the ranked queue panic, and the number of ranks never changes. -/
theorem C21_total (hU : ∀ m, ops.encodedLen m ≤ U64_MAX) (tiers mult : Nat) (hn : 0 < tiers)
    (h : List (UOp B)) (hk : h.length ≤ U64_MAX) :
    ∃ u, UOp.run ops (UserBroadcasts.new tiers mult : UserBroadcasts Id B) h = some u ∧
      u.tiers.length = tiers := by
  obtain ⟨u, e1, e2, _⟩ := user_run (ops := ops) hU tiers mult hn h hk
  exact ⟨u, e1, e2⟩

/-- C21. Strict priority. Drain after any history. Rank `i` is drained greedily with the budget
left over by the ranks above it (`before i` bytes are already spent when its turn comes); nothing is
taken out of order; when a rank was not visited at all, the whole budget is spent; and the combined
charge is exact and within the budget. -/
theorem C21_strict_priority (hU : ∀ m, ops.encodedLen m ≤ U64_MAX) (tiers mult : Nat) (hn : 0 < tiers)
    (h : List (UOp B)) (hk : h.length ≤ U64_MAX) (u : UserBroadcasts Id B)
    (hu : UOp.run ops (UserBroadcasts.new tiers mult) h = some u) (n overhead limit : Nat) :
    let r := u.takeMeasured ops n overhead limit
    let sent := r.2.1
    let used := r.2.2.1
    used = charge overhead sent.flatten ∧ used ≤ limit ∧
      (∀ i s, sent[i]? = some s → ∃ t, u.tiers[i]? = some t ∧
        Greedy overhead limit t.q (charge overhead (sent.take i).flatten) s) ∧
      (sent.length < tiers → used = limit) := by
  obtain ⟨u', e1, e2, e3⟩ := user_run (ops := ops) hU tiers mult hn h hk
  rw [hu] at e1; injection e1 with e1; subst e1
  obtain ⟨_, _, _, h4, h5, h6, h7⟩ := UserBroadcasts.takeLoop_spec hU n overhead limit U64_MAX
    (Nat.le_refl _) u.tiers 0 e3 (Nat.zero_le _)
  simp only [UserBroadcasts.takeMeasured]
  simp only [Nat.zero_add] at h4 h6
  exact ⟨h4, h5, h6, by rw [← e2]; exact h7⟩

/-- C21. Plain consequence: a broadcast of a higher rank that was passed over would not have fitted
even before any lower rank was served. -/
theorem C21_no_priority_inversion (hU : ∀ m, ops.encodedLen m ≤ U64_MAX) (tiers mult : Nat) (hn : 0 < tiers)
    (h : List (UOp B)) (hk : h.length ≤ U64_MAX) (u : UserBroadcasts Id B)
    (hu : UOp.run ops (UserBroadcasts.new tiers mult) h = some u) (n overhead limit : Nat)
    (i j : Nat) (hij : i < j) (ti : BQueue Id B) (hti : u.tiers[i]? = some ti) (x : LB B) (hx : x ∈ ti.q)
    (si sj : List (LB B)) (hsi : (u.takeMeasured ops n overhead limit).2.1[i]? = some si) (hxs : x ∉ si)
    (_hsj : (u.takeMeasured ops n overhead limit).2.1[j]? = some sj) :
    limit < charge overhead ((u.takeMeasured ops n overhead limit).2.1.take (i + 1)).flatten +
      (x.msgLen + overhead) := by
  obtain ⟨_, _, h3, _⟩ := C21_strict_priority hU tiers mult hn h hk u hu n overhead limit
  obtain ⟨t, e1, G⟩ := h3 i si hsi
  rw [hti] at e1; injection e1 with e1; subst e1
  obtain ⟨rest, p, hr⟩ := Greedy.rest G
  have := p.mem_iff.1 hx
  rw [List.mem_append] at this
  rcases this with h1 | h1
  · exact absurd h1 hxs
  · have := hr x h1
    rw [List.take_add_one, hsi, List.flatten_append, charge_append]
    have e : (some si).toList.flatten = si := by simp
    rw [e]; exact this

def exUser : List (UOp (Nat × Nat)) :=
  [.queue 0 (7, 30), .queue 1 (8, 5), .queue 9 (9, 6), .queue 0 (6, 10)]

example : 0 < 2 ∧ exUser.length ≤ U64_MAX ∧
    ((UOp.run exOps (UserBroadcasts.new 2 4) exUser).map
      (fun u => u.tiers.map (fun t => t.q.map LB.broadcast))) = some [[(7, 30), (6, 10)], [(9, 6), (8, 5)]] ∧
    ((UOp.run exOps (UserBroadcasts.new 2 4) exUser).map
      (fun u => (u.takeMeasured exOps 100 1 20).2.1.map (fun s => s.map LB.broadcast))) =
        some [[(6, 10)], [(9, 6)]] := by decide

/-- C21. Queueing at any rank succeeds; a rank beyond the last one goes to the last (lowest) rank; the
other ranks are untouched and the broadcast is in its rank's queue. -/
theorem C21_rank_saturates (hU : ∀ m, ops.encodedLen m ≤ U64_MAX) (tiers mult : Nat) (hn : 0 < tiers)
    (h : List (UOp B)) (hk : h.length < U64_MAX) (u : UserBroadcasts Id B)
    (hu : UOp.run ops (UserBroadcasts.new tiers mult) h = some u) (rank : Nat) (b : B) :
    ∃ u' fin t', u.queueRanked ops rank b = some (u', fin) ∧
      u'.tiers[if rank < tiers then rank else tiers - 1]? = some t' ∧
      (∃ x ∈ t'.q, x.broadcast = b ∧ x.transmits = 0) ∧
      ∀ j, j ≠ (if rank < tiers then rank else tiers - 1) → u'.tiers[j]? = u.tiers[j]? := by
  have hk' : (h ++ [UOp.queue rank b]).length ≤ U64_MAX := by simp; omega
  obtain ⟨u0, e1, e2, e3⟩ := uop_run (ops := ops) hU h (UserBroadcasts.new tiers mult : UserBroadcasts Id B) 0
    (by simpa [UserBroadcasts.new] using hn) (by omega) (by
      intro t ht
      simp only [UserBroadcasts.new, List.mem_replicate] at ht
      rw [ht.2]
      exact ⟨inv_new mult, Nat.le_refl _, Nat.le_refl _⟩)
  have hcount : ∀ (h : List (UOp B)) (u : UserBroadcasts Id B) (k : Nat) (u' : UserBroadcasts Id B),
      0 < u.tiers.length → k + h.length ≤ U64_MAX → (∀ t ∈ u.tiers, TierOk ops k t) →
      UOp.run ops u h = some u' → ∀ t ∈ u'.tiers, t.idGen ≤ k + h.length := by
    intro h
    induction h with
    | nil =>
      intro u k u' _ _ ht e
      simp only [UOp.run, Option.some.injEq] at e; subst e
      intro t h1; have := ht t h1; exact Nat.le_trans this.gen this.calls
    | cons o h ih =>
      intro u k u' hn hk ht e
      simp only [List.length_cons] at hk
      -- each call raises the per-rank call count by at most one
      have step : ∃ u1, UOp.run ops u [o] = some u1 ∧ UOp.run ops u1 h = some u' ∧
          0 < u1.tiers.length ∧ ∀ t ∈ u1.tiers, TierOk ops (k + 1) t := by
        cases o with
        | queue r b =>
          have hi : min r (u.tiers.length - 1) < u.tiers.length := by omega
          simp only [UOp.run, UserBroadcasts.queueRanked, List.getElem?_eq_getElem hi] at e ⊢
          have htt := ht _ (List.getElem_mem hi)
          obtain ⟨hinv, hc, hm, hg, _⟩ := htt.inv.queueBroadcast b (by
            have := htt.gen; have := htt.calls; omega)
          refine ⟨_, rfl, e, by simpa using hn, ?_⟩
          intro t h1
          rcases List.mem_or_eq_of_mem_set h1 with h1 | h1
          · exact (ht t h1).mono (by omega)
          · subst h1
            refine ⟨hinv, ?_, ?_⟩
            · have := htt.gen; omega
            · have := htt.calls; omega
        | take n ov l =>
          obtain ⟨h1, h2, _⟩ := UserBroadcasts.takeLoop_spec hU n ov l k (by omega) u.tiers 0 ht (Nat.zero_le _)
          simp only [UOp.run, UserBroadcasts.takeMeasured] at e ⊢
          exact ⟨_, rfl, e, by simp only [h2]; exact hn, fun t ht => (h1 t ht).mono (by omega)⟩
        | reset =>
          simp only [UOp.run] at e ⊢
          refine ⟨_, rfl, e, by simpa [UserBroadcasts.reset] using hn, ?_⟩
          intro t h1
          simp only [UserBroadcasts.reset, List.mem_map] at h1
          obtain ⟨t', h2, rfl⟩ := h1
          have h3 := ht t' h2
          exact ⟨(reset_spec h3.inv).1, by simp [BQueue.reset], Nat.le_trans h3.calls (by omega)⟩
      obtain ⟨u1, _, e', hn', ht'⟩ := step
      intro t h1
      have := ih u1 (k + 1) u' hn' (by omega) ht' e' t h1
      simp only [List.length_cons]; omega
  rw [hu] at e1; injection e1 with e1; subst e1
  have hlen : u.tiers.length = tiers := by simpa [UserBroadcasts.new] using e2
  have hg : ∀ t ∈ u.tiers, t.idGen < U64_MAX := by
    intro t h1
    have := hcount h (UserBroadcasts.new tiers mult) 0 u (by simpa [UserBroadcasts.new] using hn) (by omega) (by
      intro t ht
      simp only [UserBroadcasts.new, List.mem_replicate] at ht
      rw [ht.2]
      exact ⟨inv_new mult, Nat.le_refl _, Nat.le_refl _⟩) hu t h1
    omega
  have hidx : min rank (u.tiers.length - 1) = if rank < tiers then rank else tiers - 1 := by
    rw [hlen]; split <;> omega
  have hi : (if rank < tiers then rank else tiers - 1) < u.tiers.length := by
    rw [hlen]; split <;> omega
  simp only [UserBroadcasts.queueRanked, hidx, List.getElem?_eq_getElem hi]
  generalize (if rank < tiers then rank else tiers - 1) = i at hi
  have hm := List.getElem_mem hi
  obtain ⟨_, _, _, _, lb, rest, p1, _, _, e2, e3, _⟩ := (e3 _ hm).inv.queueBroadcast b (hg _ hm)
  refine ⟨_, _, _, rfl, ?_, ⟨lb, p1.mem_iff.2 (by simp), e3, e2⟩, ?_⟩
  · simp only [List.getElem?_set_self hi]
  · intro j hj
    simp only [List.getElem?_set_ne (fun h => hj h.symm)]

example : exUser.length < U64_MAX := by decide

/-- C21. `reset` notifies every queued user broadcast and empties every rank. -/
theorem C21_reset (u : UserBroadcasts Id B) :
    u.reset.2 = (u.tiers.map BQueue.q).flatten ∧ ∀ t ∈ u.reset.1.tiers, t.q = [] := by
  refine ⟨rfl, ?_⟩
  intro t ht
  simp only [UserBroadcasts.reset, List.mem_map] at ht
  obtain ⟨t', _, rfl⟩ := ht
  rfl

end Verif.Props
