import Verif.Proof.Leave
import Verif.Example.Endpoint
/-
Property theorems about leaving the cluster (C42).
-/
namespace Verif.Props
open Verif Ep Core Spec
variable {I A : Type} [DecidableEq I] [DecidableEq A]
variable {cfg : Cfg I A} {env : Env I A}

/-- C42: what leaving sends and reports. The members that are up when a running node leaves are each sent one farewell.
A farewell carries the Dead claim about the local node, made by the local node itself, after application payloads that
are the same for all: the given farewell and payloads that were waiting to be gossiped. Whatever calls follow, the
datagrams handed to the transport are the farewells, in order, and nothing else; and the end of leaving is reported
once, as soon as the last farewell has been handed over and not before. -/
theorem C42_leave {e : Ep I A} (h : Reachable cfg env e) (hr : e.isRunning = true) (now : Nat) (f : Option Bytes) :
    ∃ (live : List (Member I A)) (me : Member I A) (farewells : List (Transmit I A)) (extra : List Bytes),
      (live.map (fun m => m.server.id)).Nodup ∧
      (∀ m, m ∈ live ↔ member e m.server.id = some m ∧ m.server.id ≠ cfg.localId ∧ Live m) ∧
      member e cfg.localId = some me ∧
      farewells.map dest = live.map (fun m => m.server.addr) ∧
      (∀ t ∈ farewells, contents t = extra.map .userData ++
        [.dead { incarnation := me.incarnation, node := cfg.localId, src := cfg.localId }]) ∧
      (∀ p ∈ extra, f = some p ∨ p ∈ queuedData e) ∧
      ∀ ops, sent cfg env e (.leave now f :: ops) ++ (run cfg env e (.leave now f :: ops)).net.transmits = farewells ∧
        leftReports cfg env e (.leave now f :: ops) =
          if sent cfg env e (.leave now f :: ops) = farewells then 1 else 0 := by
  have hl : e.core.lifecycle = .running := by simpa [isRunning] using hr
  have hg := reachable_good h
  obtain ⟨h1, h2, h3⟩ := leave_pieces (cfg := cfg) (env := env) hl now f
  obtain ⟨me, hme, hinc, _⟩ := leave_get (env := env) hg hl now
  obtain ⟨live, hnd, hmem, hpe⟩ := leave_peers (env := env) hg hl now
  obtain ⟨hgone, hone⟩ := gone_leave (env := env) hg hl (reachable_notLeft h hl).2 now f
  have hreach := reachable_step h (.leave now f)
  have hfar := leave_claim hg
  rw [hfar, ← hinc] at h2
  refine ⟨live, me, (e.leaveWith cfg env now f).net.transmits, farewellData cfg env e now f, hnd, hmem, hme, ?_, ?_,
    farewellData_mem e now f, ?_⟩
  · rw [h2, hpe, List.map_map, List.map_map]
    refine List.map_congr_left fun m _ => ?_
    simp only [Function.comp, farewellTo]
    split <;> rfl
  · intro t ht
    rw [h2] at ht
    obtain ⟨a, _, rfl⟩ := List.mem_map.1 ht
    unfold farewellTo
    split
    · rename_i he
      rw [List.isEmpty_iff.1 he]; rfl
    · rfl
  · intro ops
    obtain ⟨g1, g2, g3⟩ := gone_run hreach hgone ops
    have hs : sent cfg env e (.leave now f :: ops) = sent cfg env (e.step cfg env (.leave now f)).1 ops := by
      rw [sent_eq, sent_eq]; rfl
    have hp : leftReports cfg env e (.leave now f :: ops) = leftReports cfg env (e.step cfg env (.leave now f)).1 ops := by
      unfold leftReports; rw [reported_eq, reported_eq]; rfl
    have hn : run cfg env e (.leave now f :: ops) = run cfg env (e.step cfg env (.leave now f)).1 ops := rfl
    rw [hs, hp, hn]
    refine ⟨g2, ?_⟩
    have g3' := g3.trans hone
    generalize run cfg env (e.step cfg env (.leave now f)).1 ops = b at *
    have hb : b.leaveFlush.isSome ↔ b.net.transmits ≠ [] := by
      cases hbf : b.leaveFlush with
      | none => simp [g1.none hbf]
      | some n =>
        obtain ⟨q1, q2⟩ := g1.some n hbf
        rw [q1] at q2
        simpa using List.length_pos_iff.1 q2
    have hc : sent cfg env (e.step cfg env (.leave now f)).1 ops = (e.leaveWith cfg env now f).net.transmits ↔
        b.net.transmits = [] := by
      rw [← show _ = (e.leaveWith cfg env now f).net.transmits from g2]
      simp
    unfold due at g3'
    by_cases hx : b.net.transmits = []
    · rw [if_pos (hc.2 hx)]
      rw [if_neg (by rw [hb]; simpa using hx)] at g3'
      exact g3'
    · rw [if_neg (fun q => hx (hc.1 q))]
      rw [if_pos (hb.2 hx)] at g3'
      omega

/-- C42: taking datagrams often enough completes the leave, whatever other calls came before. -/
theorem C42_completes {e : Ep I A} (h : Reachable cfg env e) (hr : e.isRunning = true) (now : Nat) (f : Option Bytes)
    (ops : List (Op I A)) (n : Nat) (hn : e.core.members.length ≤ n) :
    leftReports cfg env e (.leave now f :: (ops ++ List.replicate n .pollTransmit)) = 1 ∧
    (run cfg env e (.leave now f :: (ops ++ List.replicate n .pollTransmit))).net.transmits = [] := by
  obtain ⟨live, me, far, extra, hnd, hmem, _, hd, _, _, hall⟩ := C42_leave h hr now f
  obtain ⟨h1, h2⟩ := hall (ops ++ List.replicate n .pollTransmit)
  obtain ⟨h3, _⟩ := hall ops
  have hlen : far.length ≤ n := by
    refine Nat.le_trans ?_ hn
    have : far.length = (live.map (fun m => m.server.id)).length := by
      have := congrArg List.length hd
      simpa using this
    rw [this]
    have hsub : live.map (fun m => m.server.id) ⊆ e.core.members.map (fun m => m.server.id) := by
      intro x hx
      obtain ⟨m, hm, rfl⟩ := List.mem_map.1 hx
      exact List.mem_map.2 ⟨m, Table.get_mem ((hmem m).1 hm).1, rfl⟩
    have := (List.subperm_of_subset hnd hsub).length_le
    simpa using this
  have hempty : (run cfg env e (.leave now f :: (ops ++ List.replicate n .pollTransmit))).net.transmits = [] := by
    rw [← List.cons_append, run_append, polls_transmits]
    refine List.drop_eq_nil_of_le (Nat.le_trans ?_ hlen)
    rw [← h3]
    simp
  rw [hempty, List.append_nil] at h1
  rw [h2, if_pos h1]
  exact ⟨rfl, hempty⟩

/-- C42: leaving records the local node as left, leaves every other record as it was, and afterwards no call changes
membership, except that the application may still ask for dead members to be reaped. -/
theorem C42_members {e : Ep I A} (h : Reachable cfg env e) (hr : e.isRunning = true) (now : Nat) (f : Option Bytes)
    (ops : List (Op I A)) (ho : ∀ now, Op.resetNodes now ∉ ops) (id : I) :
    member (run cfg env e (.leave now f :: ops)) id =
      if id = cfg.localId then (member e id).map (fun m => { m with susp := none, state := .left, stateChange := now })
      else member e id := by
  have hl : e.core.lifecycle = .running := by simpa [isRunning] using hr
  have hg := reachable_good h
  obtain ⟨h1, _, _⟩ := leave_pieces (cfg := cfg) (env := env) hl now f
  obtain ⟨me, hme, _, hget⟩ := leave_get (env := env) hg hl now
  obtain ⟨hgone, _⟩ := gone_leave (env := env) hg hl (reachable_notLeft h hl).2 now f
  have hn : run cfg env e (.leave now f :: ops) = run cfg env (e.step cfg env (.leave now f)).1 ops := rfl
  rw [member_eq, hn, gone_members (reachable_step h (.leave now f)) hgone ops ho]
  show (e.leaveWith cfg env now f).core.members.get id = _
  rw [h1]
  show (e.core.beginLeave cfg env now).members.get id = _
  rw [hget]
  split
  · rename_i he; rw [he, hme]; rfl
  · rfl

/-- C42: leaving again changes nothing. -/
theorem C42_again {e : Ep I A} (now : Nat) (f : Option Bytes) (hr : e.isRunning = false) :
    e.step cfg env (.leave now f) = (e, .result (.ok ())) := by
  have hl : e.core.lifecycle ≠ .running := by simpa [isRunning] using hr
  simp only [step, leaveWith, if_pos hl]

/-- C42: a node that has left stays so, whatever calls follow. -/
theorem C42_final {e : Ep I A} (h : Reachable cfg env e) (now : Nat) (f : Option Bytes) (ops : List (Op I A)) :
    (run cfg env e (.leave now f :: ops)).isRunning = false := by
  have hn : run cfg env e (.leave now f :: ops) = run cfg env (e.step cfg env (.leave now f)).1 ops := rfl
  have h0 : (e.step cfg env (.leave now f)).1.core.lifecycle ≠ .running := by
    by_cases hl : e.core.lifecycle = .running
    · show (e.leaveWith cfg env now f).core.lifecycle ≠ _
      rw [leave_lifecycle (reachable_good h) hl]; simp
    · simp only [step, leaveWith, if_pos hl]; exact hl
  rw [hn]
  clear hn
  have h1 := reachable_step h (.leave now f)
  generalize (e.step cfg env (.leave now f)).1 = b at *
  induction ops generalizing b with
  | nil => simp [isRunning, h0, run]
  | cons op ops ih =>
    refine ih _ ?_ (reachable_step h1 op)
    rw [(frozen_step (reachable_good h1) h0 op).lifecycle]; exact h0

/-- C42: after leaving, no call gives the caller anything for the network but the farewells: no other datagram, no
stream, no dial request, no push/pull answer, no probe. -/
theorem C42_silent {e : Ep I A} (h : Reachable cfg env e) (hr : e.isRunning = true) (now : Nat) (f : Option Bytes)
    (ops : List (Op I A)) :
    ∀ o ∈ outs cfg env (e.step cfg env (.leave now f)).1 ops, Engages o →
      ∃ t, o = .transmit (some t) ∧ t ∈ sent cfg env e (.leave now f :: ops) := by
  have hl : e.core.lifecycle = .running := by simpa [isRunning] using hr
  obtain ⟨hgone, _⟩ := gone_leave (env := env) (reachable_good h) hl (reachable_notLeft h hl).2 now f
  have hs : sent cfg env e (.leave now f :: ops) = sent cfg env (e.step cfg env (.leave now f)).1 ops := by
    rw [sent_eq, sent_eq]; rfl
  rw [hs]
  exact gone_silent (reachable_step h (.leave now f)) hgone ops

/-- C42: the end of leaving is not reported while the node runs. -/
theorem C42_not_before {now : Nat} {e0 : Ep I A} (h0 : tryNew cfg env now = .ok e0) (ops : List (Op I A))
    (hr : (run cfg env e0 ops).isRunning = true) : leftReports cfg env e0 ops = 0 :=
  notLeft_run h0 ops (by simpa [isRunning] using hr)

/-- Node 0 knows 1 (suspected), 2 and 3 (dead), has a payload queued, and leaves with a farewell; then hostile and
ordinary calls follow, with two datagrams taken in between. -/
def hLeave : List (Op Nat Nat) :=
  Ex.h1 ++ [.packet 103 (Ex.alive 3 1) 40, .packet 102 (Ex.dead 3 1 2) 50, .queueUser 0 [42, 43], .startProbe 60]
def hGone : List (Op Nat Nat) :=
  [.packet 104 (Ex.alive 4 1) 80, .pollTransmit, .timeout (100000 * MS), .startProbe 90, .acceptStream 105 90,
    .pollTransmit, .startPushPull 101 .join 100, .leave 110 none]

example : (Ex.after hLeave).isRunning = true ∧
    ((sent Ex.cfg Ex.env (Ex.after hLeave) (.leave 70 (some [9]) :: hGone)).map (fun t => (dest t, contents t))) =
      [(101, [.userData [9], .userData [42, 43], Ex.dead 0 0 0]), (102, [.userData [9], .userData [42, 43], Ex.dead 0 0 0])] ∧
    leftReports Ex.cfg Ex.env (Ex.after hLeave) (.leave 70 (some [9]) :: hGone) = 1 ∧
    leftReports Ex.cfg Ex.env (Ex.after hLeave) (.leave 70 (some [9]) :: hGone.take 5) = 0 ∧
    ((Ep.run Ex.cfg Ex.env (Ex.after hLeave) (.leave 70 (some [9]) :: hGone)).core.members.map
      (fun m => (m.server.id, m.state))) = [(3, .dead), (0, .left), (1, .suspect), (2, .alive)] := by
  decide +kernel

end Verif.Props
