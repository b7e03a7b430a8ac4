import Verif.Proof.Cache
import Verif.Spec.Node
import Verif.Example.Endpoint
/-
Property theorems about push/pull exchanges (C46).
-/
namespace Verif.Ep
open Verif Core Spec
variable {I A : Type} [DecidableEq I] [DecidableEq A]
variable {cfg : Cfg I A} {env : Env I A}

omit [DecidableEq A] in
theorem tableStates_filter {t : Table I A} (hnd : (t.map Member.id).Nodup) (id : I) :
    (tableStates t).filter (fun s => s.id = id) =
      match t.get id with
      | none => []
      | some m => [{ id := id, addr := m.server.addr, metadata := m.server.metadata, incarnation := m.incarnation
                     state := m.state, pv := m.server.pv, dv := m.server.dv }] := by
  induction t with
  | nil => rfl
  | cons m t ih =>
    simp only [List.map_cons, List.nodup_cons] at hnd
    have hi := ih hnd.2
    rw [Table.get_cons]
    by_cases hm : m.id = id
    · have hn : Table.get t id = none := Table.get_eq_none.2 (hm ▸ hnd.1)
      rw [hn] at hi
      simp only [tableStates, List.map_cons] at hi ⊢
      rw [List.filter_cons, if_pos (by simpa using (show m.server.id = id from hm)), hi, if_pos hm]
      have hm' : m.server.id = id := hm
      simp [hm']
    · simp only [tableStates, List.map_cons] at hi ⊢
      rw [List.filter_cons, if_neg (by simpa using (show ¬ m.server.id = id from hm)), hi, if_neg hm]

omit [DecidableEq A] in
theorem describes_of_perm {pp : PushPull I A} {e : Ep I A} (hnd : (e.core.members.map Member.id).Nodup)
    (hp : pp.states.Perm (tableStates e.core.members)) (hd : pp.userData = e.localState) : Describes pp e := by
  refine ⟨fun id => ?_, hd⟩
  have h := tableStates_filter hnd id
  have hf := hp.filter (fun s => s.id = id)
  rw [h] at hf
  show _ = (match Table.get e.core.members id with | none => _ | some m => _)
  revert hf
  cases Table.get e.core.members id with
  | none => intro hf; exact List.perm_nil.1 hf
  | some m => intro hf; exact List.perm_singleton.1 hf

theorem refreshed_describes {e : Ep I A} (h : Reachable cfg env e) (h1 : e.cachedVer = e.core.snapVer)
    (h2 : e.cachedDirty = false) : Describes e.cached e ∧ e.cached.join = false :=
  have ho := reachable_other h
  ⟨describes_of_perm (reachable_good h).inv.nodup (ho.states h1) (ho.data h2), ho.join⟩

theorem run_cached {e : Ep I A} (h : Reachable cfg env e) (ops : List (Op I A))
    (hops : ∀ op ∈ ops, (∀ now, op ≠ .timeout now) ∧ op ≠ .setResponseCompression) :
    (Ep.run cfg env e ops).cached = e.cached := by
  induction ops using snoc_induction with
  | h0 => rfl
  | h1 ops op ih =>
    rw [run_snoc]
    have := hops op (by simp)
    rw [(step_cached (reachable_run h ops) op this.1 this.2).1]
    exact ih (fun o ho => hops o (by simp [ho]))

theorem mergeRemote_cached (e : Ep I A) (peer : A) (states : List (PushNodeState I A)) (ud : Bytes)
    (kind : PushPullKind) (stream now : Nat) : (e.mergeRemote cfg env peer states ud kind stream now).cached = e.cached := by
  have h : ∀ (l : List (PushNodeState I A)) (e : Ep I A), (e.mergeState cfg env l now).cached = e.cached := by
    intro l
    unfold mergeState
    induction l with
    | nil => intro e; rfl
    | cons r l ih =>
      intro e
      rw [List.foldl_cons, ih]
      unfold mergeOne
      split <;> rfl
  unfold mergeRemote
  dsimp only
  split
  · exact h _ _
  · exact h _ _

/-- A running node serves its cached response to every push/pull request its merge delegate accepts. -/
theorem serves_iff (e : Ep I A) (op : Op I A) (pp : PushPull I A) :
    Serves (Ep.step cfg env e op).2 pp ↔ (e.cached = pp ∧ e.core.lifecycle = .running ∧
      ∃ peer states data kind stream now,
        op = .streamEvent (.payload (.pushPullRequest peer states data kind stream)) now ∧
        env.mergeOk e.tick (mergeView states) = true) := by
  cases op with
  | streamEvent ev now =>
    unfold Serves
    simp only [Ep.step, Out.command.injEq, Op.streamEvent.injEq]
    unfold handleStreamEvent
    split
    · split
      · simp
      · split <;> simp
    · rename_i peer states data kind stream
      simp only [EndpointEvent.payload.injEq, PayloadEvent.pushPullRequest.injEq]
      by_cases hl : e.core.lifecycle = .running
      · rw [if_neg (by simp [hl])]
        by_cases hm : env.mergeOk e.tick (mergeView states) = true
        · rw [if_neg (by simp [hm])]
          simp only [mergeRemote_cached, Option.some.injEq, StreamCommand.sendResponse.injEq]
          constructor
          · intro h
            exact ⟨h, hl, peer, states, data, kind, stream, now, ⟨⟨rfl, rfl, rfl, rfl, rfl⟩, rfl⟩, hm⟩
          · intro h; exact h.1
        · rw [if_pos (by simpa using hm)]
          constructor
          · intro h; cases h
          · rintro ⟨_, _, _, _, _, _, _, _, ⟨⟨_, h, _⟩, _⟩, h2⟩
            exact absurd (h ▸ h2) hm
      · rw [if_pos hl]
        simp [hl]
    · split <;> simp
    · split <;> simp
    · split <;> simp
    · simp
    · simp
  | _ => simp [Serves, Ep.step]

/-- What is served is the cached response. -/
theorem served_eq {e : Ep I A} {op : Op I A} {pp : PushPull I A} (hs : Serves (Ep.step cfg env e op).2 pp) :
    e.cached = pp := ((serves_iff e op pp).1 hs).1

end Verif.Ep

namespace Verif.Props
open Verif Ep Core Spec
variable {I A : Type} [DecidableEq I] [DecidableEq A]
variable {cfg : Cfg I A} {env : Env I A}

/-- C46: the state served to a push/pull peer describes the node exactly as it was when its timers were last serviced
(or the response compression was last changed): one entry per member with its address, metadata, incarnation and state at
that moment, and the application's snapshot. Whatever happens in between, including the merge of the peer's own state, does
not show in the answer. -/
theorem C46_served {e : Ep I A} (h : Reachable cfg env e) (refresh : Op I A)
    (hr : (∃ now, refresh = .timeout now ∧ e.core.lifecycle = .running) ∨ refresh = .setResponseCompression)
    (ops : List (Op I A)) (hops : ∀ op ∈ ops, (∀ now, op ≠ .timeout now) ∧ op ≠ .setResponseCompression)
    (request : Op I A) (pp : PushPull I A)
    (hs : Serves (Ep.step cfg env (Ep.run cfg env (e.step cfg env refresh).1 ops) request).2 pp) :
    Describes pp (e.step cfg env refresh).1 ∧ pp.join = false := by
  have h1 := reachable_step h refresh
  have hc : (e.step cfg env refresh).1.cachedVer = (e.step cfg env refresh).1.core.snapVer ∧
      (e.step cfg env refresh).1.cachedDirty = false := by
    rcases hr with ⟨now, rfl, hl⟩ | rfl
    · simp only [Ep.step]
      rw [handleTimeout_eq e now hl]
      exact refreshCache_fresh _
    · exact refreshCache_fresh _
  have hd := refreshed_describes h1 hc.1 hc.2
  rw [← served_eq hs, run_cached h1 ops hops]
  exact hd

/-- C46, continued: so if the table and the snapshot did not change since then, the answer describes the node as it is. -/
theorem C46_current {e : Ep I A} (h : Reachable cfg env e) (now : Nat) (hl : e.core.lifecycle = .running)
    (ops : List (Op I A)) (hops : ∀ op ∈ ops, (∀ now, op ≠ .timeout now) ∧ op ≠ .setResponseCompression)
    (hm : ∀ id, member (Ep.run cfg env (e.step cfg env (.timeout now)).1 ops) id =
      member (e.step cfg env (.timeout now)).1 id)
    (hst : (Ep.run cfg env (e.step cfg env (.timeout now)).1 ops).localState = (e.step cfg env (.timeout now)).1.localState)
    (request : Op I A) (pp : PushPull I A)
    (hs : Serves (Ep.step cfg env (Ep.run cfg env (e.step cfg env (.timeout now)).1 ops) request).2 pp) :
    Describes pp (Ep.run cfg env (e.step cfg env (.timeout now)).1 ops) := by
  have hd := (C46_served h (.timeout now) (.inl ⟨now, rfl, hl⟩) ops hops request pp hs).1
  refine ⟨fun id => ?_, hd.2.trans hst.symm⟩
  rw [hm id]
  exact hd.1 id

/-- C46, continued: a new node, before its timers were ever serviced, answers with the state it was created with. -/
theorem C46_new {now : Nat} {e0 : Ep I A} (h : Ep.tryNew cfg env now = .ok e0) (ops : List (Op I A))
    (hops : ∀ op ∈ ops, (∀ now, op ≠ .timeout now) ∧ op ≠ .setResponseCompression)
    (request : Op I A) (pp : PushPull I A) (hs : Serves (Ep.step cfg env (Ep.run cfg env e0 ops) request).2 pp) :
    Describes pp e0 ∧ pp.join = false := by
  have h1 := reachable_new h
  have hc : e0.cachedVer = e0.core.snapVer ∧ e0.cachedDirty = false := by
    rw [tryNew_eq h]; exact refreshCache_fresh _
  rw [← served_eq hs, run_cached h1 ops hops]
  exact refreshed_describes h1 hc.1 hc.2

/-- C46, continued: a running node serves a state to every push/pull request its merge delegate accepts, and to nothing
else. -/
theorem C46_when (e : Ep I A) (op : Op I A) :
    (∃ pp, Serves (e.step cfg env op).2 pp) ↔
      e.core.lifecycle = .running ∧ ∃ peer states data kind stream now,
        op = .streamEvent (.payload (.pushPullRequest peer states data kind stream)) now ∧
        env.mergeOk e.tick (mergeView states) = true := by
  constructor
  · rintro ⟨pp, h⟩; exact ((serves_iff e op pp).1 h).2
  · intro h; exact ⟨e.cached, (serves_iff e op _).2 ⟨rfl, h⟩⟩

/-- C46, continued: the state a push/pull the node starts itself carries describes the node at that moment. -/
theorem C46_request {e : Ep I A} (h : Reachable cfg env e) (hl : e.core.lifecycle = .running) (peer : A)
    (kind : PushPullKind) (now : Nat) :
    ∃ id i pp, (e.step cfg env (.startPushPull peer kind now)).2 = .streamId id ∧
      (e.step cfg env (.startPushPull peer kind now)).1.net.intents.get? id = some i ∧
      i.peer = peer ∧ i.deadline = now + cfg.streamTimeout ∧ i.kind = .pushPull kind ∧
      i.encoded = encodeBytes env (.pushPull pp) ∧ Describes pp e ∧ (pp.join = true ↔ kind = .join) := by
  have hnd := (reachable_good h).inv.nodup
  have hr : isRunning { e with net := { e.net with nextStreamId := e.net.nextStreamId + 1 } } = true := by
    simp [isRunning, hl]
  refine ⟨e.net.nextStreamId, { peer := peer, kind := .pushPull kind, deadline := now + cfg.streamTimeout, encoded := _ }, { join := kind == .join, states := tableStates e.core.members, userData := e.localState },
    ?_, ?_, rfl, rfl, rfl, rfl, describes_of_perm hnd (.refl _) rfl, ?_⟩
  · simp only [Ep.step, startPushPull, startPushPullDirect, hr]
    rfl
  · simp only [Ep.step, startPushPull, startPushPullDirect, hr]
    exact (Map.get?_insert ..).trans (if_pos rfl)
  · dsimp only; cases kind <;> decide

/-- A push/pull request of node 2. -/
def pullRequest : Op Nat Nat :=
  .streamEvent (.payload (.pushPullRequest 102 [{ id := 2, addr := 102, metadata := [], incarnation := 4, state := .alive
                                                  pv := .v1, dv := .v1 }] [9] .refresh 1)) (2 * MS)

/-- The hypotheses of `C46_served` are met: a node with three members services its timers, node 3 joins, and node 2 asks
for the state. -/
example :
    (match (Ep.step Ex.cfg Ex.env (Ep.run Ex.cfg Ex.env (Ex.after (Ex.h1 ++ [.setLocalState [5]] ++ [.timeout MS]))
        [.packet 103 (Ex.alive 3 1) MS]) pullRequest).2 with
      | .command (some (.sendResponse pp)) =>
        (pp.states.map (fun s => (s.id, s.addr, s.incarnation, s.state)), pp.userData)
      | _ => ([], [])) =
    ([(2, 102, 3, .alive), (0, 100, 0, .alive), (1, 101, 5, .suspect)], [5]) := by decide +kernel

/-- The hypotheses of `C46_request` are met. -/
example : Reachable Ex.cfg Ex.env (Ex.after Ex.h1) ∧ (Ex.after Ex.h1).core.lifecycle = .running :=
  ⟨Ex.after_reachable _, by decide +kernel⟩

end Verif.Props
