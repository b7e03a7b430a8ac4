import Verif.Proof.Fair
import Verif.Example.Endpoint
/-
C45. Probe scheduling is fair.
-/
namespace Verif.Props
open Verif Ep Spec
variable {I A : Type} [DecidableEq I] [DecidableEq A]
variable {cfg : Cfg I A} {env : Env I A}

/-- C45. The timers served, and any other calls made except an explicit reset: while the table keeps its size `n`, a
member that stays live is probed within `2n - 1` probe rounds. A round that ends a pass over the table shuffles it,
which is why one pass of `n` rounds may not be enough when the window starts in the middle of a pass. Sequence numbers
must not be used up. -/
theorem C45_fair {e : Ep I A} (h : Reachable cfg env e) (ops : List (Op I A)) (id : I)
    (hlive : ∀ x ∈ states cfg env e ops, LiveRemote cfg x id)
    (hsize : ∀ x ∈ states cfg env e ops, x.core.members.length = e.core.members.length)
    (hfree : ∀ x ∈ states cfg env e ops, x.net.probes.length + x.net.forwards.length < 2 ^ 32 - 1)
    (hreset : ∀ now, .resetNodes now ∉ ops)
    (hrounds : 2 * e.core.members.length - 1 ≤ rounds cfg env e ops) : ProbedDuring cfg env e ops id := by
  obtain ⟨d, hd⟩ := farAt_exists (mem_ids (hlive e (states_head _ _))) e.probeIndex
  have hlt := hd.1
  simp only [Core.ids, List.length_map] at hlt
  exact fair_any ops h hreset (fun x hx => ⟨hlive x hx, hsize x hx, hfree x hx⟩) hd (by omega)

/-- C45. Without the timers the table is not shuffled, and `n` rounds are enough. -/
theorem C45_asked {e : Ep I A} (h : Reachable cfg env e) (ops : List (Op I A)) (id : I)
    (hlive : ∀ x ∈ states cfg env e ops, LiveRemote cfg x id)
    (hsize : ∀ x ∈ states cfg env e ops, x.core.members.length = e.core.members.length)
    (hfree : ∀ x ∈ states cfg env e ops, x.net.probes.length + x.net.forwards.length < 2 ^ 32 - 1)
    (hreset : ∀ now, .resetNodes now ∉ ops) (htimers : ∀ now, .timeout now ∉ ops)
    (hrounds : e.core.members.length ≤ rounds cfg env e ops) : ProbedDuring cfg env e ops id := by
  obtain ⟨d, hd⟩ := farAt_exists (mem_ids (hlive e (states_head _ _))) e.probeIndex
  have hlt := hd.1
  simp only [Core.ids, List.length_map] at hlt
  exact fair_pass ops h hreset (fun x hx => ⟨hlive x hx, hsize x hx, hfree x hx⟩) hd (.inl htimers) (by omega)

/-- C45. A probe only ever starts in a round, and its target is then a live member other than the local node. -/
theorem C45_targets {e : Ep I A} (h : Reachable cfg env e) (op : Op I A) {seq : Nat} {p : Probe I A}
    (hp : pending (e.step cfg env op).1 seq = some p) (hk : p.kind = .detection) (hn : pending e seq = none) :
    (∃ now, (op = .startProbe now ∨ op = .timeout now) ∧ p.sentAt = now) ∧
      LiveRemote cfg (e.step cfg env op).1 p.target.id ∧
      ∃ m, member (e.step cfg env op).1 p.target.id = some m ∧ p.target = m.server := by
  rcases step_started h op hp hk with ⟨q, hq, _⟩ | ⟨m, now, h1, h2, h3, h4, h5, _, _, h6, _⟩
  · rw [hn] at hq; cases hq
  · have hi := (reachable_good (reachable_step h op)).inv
    have hm : member (e.step cfg env op).1 p.target.id = some m := by
      rw [member_eq, Table.get_iff hi.nodup, h5]
      exact ⟨h2, rfl⟩
    refine ⟨⟨now, h1, h6⟩, ⟨by rw [h5]; exact h3, m, hm, ?_⟩, m, hm, h5⟩
    have hst := (hi.mem _ _ (by rw [← member_eq]; exact hm)).known
    simp only [Member.deadOrLeft, decide_eq_false_iff_not, not_or] at h4
    rcases hst with hst | hst | hst | hst
    · exact .inl hst
    · exact .inr hst
    · exact absurd hst h4.1
    · exact absurd hst h4.2

/- A concrete case: nodes 1 (suspected), 2 and 3 are known, the schedulers run and the timers are served every second.
The table keeps its four members, node 2 stays live, so seven rounds must reach it. -/
section Example
open Verif.Ex

def hFair : List (Op Nat Nat) := h1 ++ [.packet 103 (alive 3 1) 40, .startScheduling 50]
def fairTicks (k n : Nat) : List (Op Nat Nat) := (List.range n).map fun i => .timeout ((k + i + 1) * 1000 * MS + 1000)
def liveRemote (x : Ep Nat Nat) (id : Nat) : Bool :=
  id != Ex.cfg.localId && match member x id with
    | some m => m.state = .alive || m.state = .suspect
    | none => false

theorem liveRemote_ok {x : Ep Nat Nat} {id : Nat} (h : liveRemote x id = true) : LiveRemote Ex.cfg x id := by
  unfold liveRemote at h
  split at h
  · rename_i m hm
    simp at h
    exact ⟨h.1, m, hm, h.2⟩
  · simp at h

example : ProbedDuring Ex.cfg Ex.env (after hFair) (fairTicks 0 7) 2 := by
  refine C45_fair (after_reachable hFair) _ 2 (fun x hx => liveRemote_ok ?_) (by decide +kernel) (by decide +kernel) ?_
    (by decide +kernel)
  · have : ∀ x ∈ states Ex.cfg Ex.env (after hFair) (fairTicks 0 7), liveRemote x 2 = true := by decide +kernel
    exact this x hx
  · intro now h; simp [fairTicks] at h

example : ProbedDuring Ex.cfg Ex.env (after hFair)
    [.startProbe 60, .ping { id := 2, addr := 102 } 70, .startProbe 70, .startProbe 80, .startProbe 90] 2 := by
  refine C45_asked (after_reachable hFair) _ 2 (fun x hx => liveRemote_ok ?_) (by decide +kernel) (by decide +kernel) ?_
    ?_ (by decide +kernel)
  · have : ∀ x ∈ states Ex.cfg Ex.env (after hFair) [.startProbe 60, .ping { id := 2, addr := 102 } 70,
      .startProbe 70, .startProbe 80, .startProbe 90], liveRemote x 2 = true := by decide +kernel
    exact this x hx
  · intro now h; simp at h
  · intro now h; simp at h

example : (pending (after (hFair ++ [.startProbe 60])) 1).map (fun p => (p.kind, p.target.id)) =
    some (.detection, 3) ∧ pending (after hFair) 1 = none := by decide +kernel

theorem states_mem {I A : Type} [DecidableEq I] [DecidableEq A] {cfg : Cfg I A} {env : Env I A} (before : List (Op I A)) :
    ∀ (e : Ep I A) (op : Op I A) (after : List (Op I A)),
      e.run cfg env (before ++ [op]) ∈ (states cfg env e (before ++ op :: after)).tail := by
  induction before with
  | nil =>
    intro e op after
    show (e.step cfg env op).1 ∈ states cfg env (e.step cfg env op).1 after
    exact states_head _ _
  | cons o os ih =>
    intro e op after
    have := ih (e.step cfg env o).1 op after
    show (e.step cfg env o).1.run cfg env (os ++ [op]) ∈ states cfg env (e.step cfg env o).1 (os ++ op :: after)
    exact List.mem_of_mem_tail this

/-- One pass of `n` rounds is not enough when the timers run: the window that starts just after node 3 was probed has
four rounds with four members, node 3 is live throughout, and it is not probed (the shuffle has moved it back). -/
theorem C45_short_window_witness :
    Reachable Ex.cfg Ex.env (after (hFair ++ fairTicks 0 1)) ∧
    (∀ x ∈ states Ex.cfg Ex.env (after (hFair ++ fairTicks 0 1)) (fairTicks 1 4),
      LiveRemote Ex.cfg x 3 ∧ x.core.members.length = 4) ∧
    rounds Ex.cfg Ex.env (after (hFair ++ fairTicks 0 1)) (fairTicks 1 4) = 4 ∧
    ¬ ProbedDuring Ex.cfg Ex.env (after (hFair ++ fairTicks 0 1)) (fairTicks 1 4) 3 := by
  have hl : ∀ x ∈ states Ex.cfg Ex.env (after (hFair ++ fairTicks 0 1)) (fairTicks 1 4),
      liveRemote x 3 = true ∧ x.core.members.length = 4 := by decide +kernel
  refine ⟨after_reachable _, fun x hx => ⟨liveRemote_ok (hl x hx).1, (hl x hx).2⟩, by decide +kernel, ?_⟩
  rintro ⟨before, op, rest, now, hops, _, _, p, hp, _, ht, _⟩
  have hm := states_mem (cfg := Ex.cfg) (env := Ex.env) before (after (hFair ++ fairTicks 0 1)) op rest
  rw [← hops] at hm
  have hno : ∀ x ∈ (states Ex.cfg Ex.env (after (hFair ++ fairTicks 0 1)) (fairTicks 1 4)).tail,
      (pending x x.net.nextSeq).map (·.target.id) ≠ some 3 := by decide +kernel
  exact hno _ hm (by rw [hp]; simp [ht])

end Example

end Verif.Props
