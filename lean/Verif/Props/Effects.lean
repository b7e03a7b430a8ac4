import Verif.Props.Membership
/-
C56 and C57: what one accepted claim, or one metadata update, does.
-/
namespace Verif.Props
open Verif Ep Spec
variable {I A : Type} [DecidableEq I] [DecidableEq A]
variable {cfg : Cfg I A} {env : Env I A}

/-! ### C56 -/

/-- A Dead claim about a remote member that is up, not older than the record: the member is left if it made
the claim itself and dead otherwise, at the incarnation and time of the claim, without a suspicion timer. The
claim is passed on, one leave event is queued and nobody else's record changes. -/
theorem C56_dead {e : Ep I A} (h : Reachable cfg env e) (hr : e.core.lifecycle = .running) (hq : QueueFresh e)
    {m : Member I A} {d : BadState I} (hm : member e d.node = some m) (hid : d.node ≠ cfg.localId) (hl : Live m)
    (hi : m.incarnation ≤ d.incarnation) (src : A) (now : Nat) :
    let e' := (e.step cfg env (.packet src (.dead d) now)).1
    member e' d.node = some { m with
      state := if d.src = d.node then .left else .dead, incarnation := d.incarnation, stateChange := now
      susp := none } ∧
    (∀ id, id ≠ d.node → member e' id = member e id) ∧
    e'.core.events = e.core.events ++ [.nodeLeft m.server] ∧
    Announces e' d.node (.dead d) ∧ e'.core.suspIdx.deadlineOf d.node = none := by
  intro e'
  have hm' : e.core.members.get d.node = some m := hm
  have hstep : e' = { e with core := e.core.killed env d m (if d.node = d.src then .left else .dead) now } := by
    show (e.step cfg env (.packet src (.dead d) now)).1 = _
    rw [packet_dead hr]
    congr 1
    unfold Core.processDead
    rw [hm']
    dsimp only
    rw [if_neg (by omega), if_neg (show ¬ (m.state = .dead ∨ m.state = .left) from live_not_down hl), if_neg hid, if_neg (by simp [hr])]
    rfl
  have hrec : member e' d.node = some { m with
      state := if d.src = d.node then .left else .dead, incarnation := d.incarnation, stateChange := now
      susp := none } := by
    rw [hstep, member_eq]
    show (e.core.killed env d m _ now).members.get _ = _
    rw [Core.get_killed hm', if_pos rfl]
    by_cases hs : d.src = d.node
    · simp [hs]
    · rw [if_neg hs, if_neg (fun h => hs h.symm)]
  refine ⟨hrec, ?_, ?_, ?_, ?_⟩
  · intro id hne
    rw [hstep, member_eq]
    show (e.core.killed env d m _ now).members.get _ = _
    rw [Core.get_killed hm', if_neg hne]; rfl
  · rw [hstep]; rfl
  · exact announces_of (reachable_qok h) hq (by rw [hstep]; rfl)
  · cases hd : e'.core.suspIdx.deadlineOf d.node with
    | none => rfl
    | some x =>
      obtain ⟨m1, s, h1, _, h3, _⟩ := (C29_timers (reachable_step h _) _ _).1 hd
      have h1' : member e' d.node = some m1 := h1
      rw [hrec] at h1'; cases h1'
      cases h3

/-- A Suspect claim about an alive remote member, not older than the record: the member is suspected, at the
incarnation and time of the claim. With at least `suspicion_mult` members and a multiplier above 2 the timer
starts at the maximum, to be shortened by confirmations; otherwise it is the minimum. The claim is passed on,
no event is queued and nobody else's record changes. -/
theorem C56_suspect {e : Ep I A} (h : Reachable cfg env e) (hr : e.core.lifecycle = .running) (hq : QueueFresh e)
    {m : Member I A} {s : BadState I} (hm : member e s.node = some m) (hid : s.node ≠ cfg.localId)
    (hl : m.state = .alive) (hi : m.incarnation ≤ s.incarnation) (src : A) (now : Nat) :
    let e' := (e.step cfg env (.packet src (.suspect s) now)).1
    let min := env.suspMinMs e.core.members.length * MS
    let max := min * cfg.suspicionMaxTimeoutMult
    ∃ m', member e' s.node = some m' ∧ m'.state = .suspect ∧ m'.incarnation = s.incarnation ∧
      m'.stateChange = now ∧ m'.server = m.server ∧ m'.gen = m.gen ∧
      e'.core.suspIdx.deadlineOf s.node = some (now +
        (if cfg.suspicionMult ≤ e.core.members.length ∧ 2 < cfg.suspicionMult ∧ max ≤ DURATION_MAX then max else min)) ∧
      (∀ id, id ≠ s.node → member e' id = member e id) ∧
      e'.core.events = e.core.events ∧ Announces e' s.node (.suspect s) := by
  intro e' min max
  have hg := reachable_good h
  have hm' : e.core.members.get s.node = some m := hm
  have hns : m.susp = none := by
    cases hs : m.susp with
    | none => rfl
    | some x =>
      have := (hg.inv.mem _ _ hm').susp.1 (by rw [hs]; rfl)
      rw [hl] at this; cases this
  have hn : 1 ≤ e.core.members.length := by
    have := Table.get_mem hm'
    exact List.length_pos_of_mem this
  have hmax : Nat.max e.core.members.length 1 = e.core.members.length := Nat.max_eq_left hn
  have hto : e.core.suspicionTimeouts cfg env = (min, if max ≤ DURATION_MAX then max else min) := by
    unfold Core.suspicionTimeouts
    rw [hmax]
  let su := Suspicion.new s.src (if e.core.members.length ≥ cfg.suspicionMult then cfg.suspicionMult - 2 else 0) min
    (if max ≤ DURATION_MAX then max else min) now
  have hstep : e' = { e with core := Core.broadcast env (Core.bump { e.core with
        members := (e.core.members.update s.node (fun m => { m with susp := some su })).update
            s.node (fun m => { m with incarnation := s.incarnation }.setState .suspect now)
        suspIdx := e.core.suspIdx.set s.node (some su.deadline) }) s.node (.suspect s) } := by
    show (e.step cfg env (.packet src (.suspect s) now)).1 = _
    rw [packet_suspect hr]
    congr 1
    unfold Core.processSuspect
    rw [if_neg (by simp [hr]), hm']
    dsimp only
    rw [if_neg (by omega), hns]
    dsimp only
    rw [if_neg (by simp [hl]), if_neg hid, hto]
    simp only [Core.installSuspicion, hm']
    rfl
  have hget : ∀ id, member e' id = if id = s.node then
      some { m with susp := some su, incarnation := s.incarnation, state := .suspect, stateChange := now }
      else member e id := by
    intro id
    rw [hstep, member_eq]
    show Table.get (Table.update (Table.update e.core.members _ _) _ _) id = _
    rw [Table.get_update _ _ _ _ (by intro m hm; exact hm), Table.get_update _ _ _ _ (by intro m hm; exact hm)]
    by_cases he : id = s.node
    · subst he; simp [hm', Member.setState]
    · simp [he, member_eq]
  have hrec := (hget s.node).trans (if_pos rfl)
  refine ⟨_, hrec, rfl, rfl, rfl, rfl, rfl, ?_, ?_, ?_, ?_⟩
  · rw [C29_timers (reachable_step h _)]
    refine ⟨_, su, hrec, rfl, rfl, ?_⟩
    show now + (if (if e.core.members.length ≥ cfg.suspicionMult then cfg.suspicionMult - 2 else 0) < 1 then min
      else (if max ≤ DURATION_MAX then max else min)) = _
    by_cases h1 : e.core.members.length ≥ cfg.suspicionMult
    · rw [if_pos h1]
      by_cases h2 : 2 < cfg.suspicionMult
      · rw [if_neg (by omega)]
        by_cases h3 : max ≤ DURATION_MAX
        · rw [if_pos h3, if_pos ⟨h1, h2, h3⟩]
        · rw [if_neg h3, if_neg (fun h => h3 h.2.2)]
      · rw [if_pos (by omega), if_neg (fun h => h2 h.2.1)]
    · rw [if_neg h1, if_pos (by omega), if_neg (fun h => h1 h.1)]
  · intro id hne; rw [hget, if_neg hne]
  · rw [hstep]; rfl
  · exact announces_of (reachable_qok h) hq (by rw [hstep]; rfl)

/-- An Alive claim about a remote member, from its recorded address and newer than the record: the member is
alive with exactly the data of the claim and without a suspicion timer; the time of its last state change
moves only if it was not alive. One join event is queued if it was gone, one update event if it was up and
its metadata changed, no event otherwise. -/
theorem C56_alive {e : Ep I A} (h : Reachable cfg env e) (hr : e.core.lifecycle = .running) (hq : QueueFresh e)
    {m : Member I A} {a : Alive I A} (hm : member e a.node.id = some m) (hid : a.node.id ≠ cfg.localId)
    (haddr : m.server.addr = a.node.addr) (hi : m.incarnation < a.incarnation)
    (hok : env.aliveOk e.tick { id := a.node.id, addr := a.node.addr, metadata := a.metadata, state := .alive
                                pv := a.pv, dv := a.dv } = true) (src : A) (now : Nat) :
    let e' := (e.step cfg env (.packet src (.alive a) now)).1
    let n : NodeState I A := { id := a.node.id, addr := a.node.addr, metadata := a.metadata, state := .alive
                               pv := a.pv, dv := a.dv }
    member e' a.node.id = some
      { server := n, incarnation := a.incarnation, state := .alive, susp := none, gen := m.gen
        stateChange := if m.state = .alive then m.stateChange else now } ∧
    (∀ id, id ≠ a.node.id → member e' id = member e id) ∧
    e'.core.events = e.core.events ++ (if Down m then [.nodeJoined n] else
      if m.server.metadata ≠ a.metadata then [.nodeUpdated n] else []) ∧
    Announces e' a.node.id (.alive a) := by
  intro e' n
  have hg := reachable_good h
  have hm' : e.core.members.get a.node.id = some m := hm
  have hstep : e' = { e with core := e.core.adopted env a false m now, tick := e.tick + 1 } := by
    show (e.step cfg env (.packet src (.alive a) now)).1 = _
    rw [packet_alive hr]
    have hok' : env.aliveOk e.tick (Core.nodeOf a .alive) = true := hok
    rw [hok']
    congr 1
    unfold Core.processAlive
    rw [if_neg (by simp [hr])]
    simp only [Bool.not_true, Bool.false_eq_true, if_false]
    unfold Core.processAliveDecided Core.admitAlive
    rw [hm']
    dsimp only
    rw [if_neg (by simp [haddr])]
    dsimp only
    rw [hm']
    dsimp only
    have hi' : ¬ a.incarnation ≤ m.incarnation := by omega
    simp only [hid, decide_false, hi', Bool.not_false, Bool.and_false, Bool.false_and,
              Bool.false_eq_true, if_false, if_true, Bool.true_or]
    unfold Core.adopted Core.adoptEvent
    simp only [Bool.false_eq_true, if_false]
    split
    · rfl
    · split <;> rfl
  refine ⟨?_, ?_, ?_, ?_⟩
  · rw [hstep, member_eq]
    show (e.core.adopted env a false m now).members.get _ = _
    rw [Core.get_adopted hm', if_pos rfl]
    simp only [Core.adoptAlive, Bool.false_eq_true, if_false, Option.getD_none, Core.nodeOf]
    by_cases hs : m.state = .alive
    · simp [hs, n]
    · simp [hs, n, Member.setState]
  · intro id hne
    rw [hstep, member_eq]
    show (e.core.adopted env a false m now).members.get _ = _
    rw [Core.get_adopted hm', if_neg hne]; rfl
  · rw [hstep]
    show (e.core.adopted env a false m now).events = _
    unfold Core.adopted Core.adoptEvent
    by_cases hd : Down m
    · have hd' : m.state = .dead ∨ m.state = .left := hd
      simp only [hd, hd', if_true]
      rfl
    · have hd' : ¬ (m.state = .dead ∨ m.state = .left) := hd
      simp only [hd, hd', if_false]
      by_cases hmd : m.server.metadata ≠ a.metadata
      · simp only [hmd, if_true, ne_eq, not_false_eq_true]; rfl
      · simp only [hmd, if_false, List.append_nil]; rfl
  · refine announces_of (reachable_qok h) hq ?_
    rw [hstep]; exact adopted_bcast _ _ _ _ _

/-- An Alive claim about an unknown node, when there is room: the node is a member with exactly the data of
the claim, and one join event is queued. -/
theorem C56_join {e : Ep I A} (h : Reachable cfg env e) (hr : e.core.lifecycle = .running)
    {a : Alive I A} (hm : member e a.node.id = none)
    (hfull : ∀ mx, cfg.maxMembers = some mx → e.core.members.length < mx)
    (hok : env.aliveOk e.tick { id := a.node.id, addr := a.node.addr, metadata := a.metadata, state := .alive
                                pv := a.pv, dv := a.dv } = true) (src : A) (now : Nat) :
    let e' := (e.step cfg env (.packet src (.alive a) now)).1
    let n : NodeState I A := { id := a.node.id, addr := a.node.addr, metadata := a.metadata, state := .alive
                               pv := a.pv, dv := a.dv }
    (∃ m', member e' a.node.id = some m' ∧ m'.server = n ∧ m'.incarnation = a.incarnation ∧ m'.state = .alive) ∧
    (∀ id, id ≠ a.node.id → member e' id = member e id) ∧
    e'.core.events = e.core.events ++ [.nodeJoined n] ∧
    (QueueFresh e → Announces e' a.node.id (.alive a)) := by
  intro e' n
  have hg := reachable_good h
  obtain ⟨m', h1, h2, h3, h4⟩ := adopt_new hg hm hr hfull hok src now
  refine ⟨⟨m', h1, h4, h3, h2⟩, fun id hne => alive_other hg (fun x => hne x.symm) src now, ?_, ?_⟩
  · have key : (e.core.processAlive cfg env a (env.aliveOk e.tick (Core.nodeOf a .alive)) (env.tape e.tick 0) now).members.get
        a.node.id ≠ none →
        (e.core.processAlive cfg env a (env.aliveOk e.tick (Core.nodeOf a .alive)) (env.tape e.tick 0) now).events =
          e.core.events ++ [.nodeJoined n] := by
      apply Core.processAlive_cases cfg env e.core a _ _ now
        (fun c' : Core I A => c'.members.get a.node.id ≠ none → c'.events = e.core.events ++ [Event.nodeJoined n])
      · intro h1; exact absurd hm h1
      · intro m _ _ hg1; have hm : e.core.members.get a.node.id = none := hm; rw [hm] at hg1; cases hg1
      · intro mx _ _ _ h1 h2; exact absurd (hfull mx h1) (by omega)
      · intro m _ _ hg1; have hm : e.core.members.get a.node.id = none := hm; rw [hm] at hg1; cases hg1
      · intro m _ _ hg1; have hm : e.core.members.get a.node.id = none := hm; rw [hm] at hg1; cases hg1
      · intro m _ _ hg1; have hm : e.core.members.get a.node.id = none := hm; rw [hm] at hg1; cases hg1
      · intro m _ _ hg1; have hm : e.core.members.get a.node.id = none := hm; rw [hm] at hg1; cases hg1
      · intros
        rfl
      · obtain ⟨m, hm, _⟩ := hg.inv.loc
        rw [hm]; rfl
      · intro m hl hm
        have := (hg.inv.local_get hm).state
        rw [hl] at this
        simpa using this
      · exact hg.inv.nodup
    have he' : e' = _ := packet_alive hr src a now
    rw [he']
    apply key
    have : e'.core.members.get a.node.id = some m' := h1
    rw [he'] at this
    intro hn
    exact absurd (this.symm.trans hn) (by simp)
  intro hq
  have hid : a.node.id ≠ cfg.localId := by
    intro e1
    obtain ⟨m, hm1, _⟩ := hg.inv.loc
    have hm : e.core.members.get a.node.id = none := hm
    rw [← e1, hm] at hm1
    cases hm1
  refine C55_accepted_is_announced h hq hid (.alive a rfl) src now ?_
  rw [h1, hm]; simp

/-- The hypotheses are met by node 2 of the example history (alive), which is suspected, declared dead by
node 1, and renewed; and by the unknown node 3. -/
example : (Ex.after Ex.h1).core.lifecycle = .running ∧
    (member (Ex.after Ex.h1) 2).map (fun m => (m.state, m.incarnation, m.server.addr)) = some (.alive, 3, 102) ∧
    (member (Ex.after (Ex.h1 ++ [.packet 101 (Ex.suspect 2 4 1) 40])) 2).map (fun m => (m.state, m.incarnation)) =
      some (.suspect, 4) ∧
    (member (Ex.after (Ex.h1 ++ [.packet 101 (Ex.dead 2 4 1) 40])) 2).map (fun m => (m.state, m.incarnation)) =
      some (.dead, 4) ∧
    (member (Ex.after (Ex.h1 ++ [.packet 101 (Ex.dead 2 4 2) 40])) 2).map (fun m => (m.state, m.incarnation)) =
      some (.left, 4) ∧
    (member (Ex.after (Ex.h1 ++ [.packet 101 (Ex.alive 2 4 [8]) 40])) 2).map (fun m => (m.state, m.server.metadata)) =
      some (.alive, [8]) ∧
    (member (Ex.after Ex.h1) 3) = none ∧
    (member (Ex.after (Ex.h1 ++ [.packet 101 (Ex.alive 3 4 [8]) 40])) 3).map (fun m => (m.state, m.server.metadata)) =
      some (.alive, [8]) := by decide +kernel

/-! ### C57 -/

/-- A metadata update within the size cap on a running node succeeds: the node's own record has the new
metadata and the next incarnation, the Alive claim saying so is queued for gossip in place of any older claim
about the node, one update event is queued, and nobody else's record changes. -/
theorem C57_update_meta {e : Ep I A} (h : Reachable cfg env e) (hr : e.core.lifecycle = .running) (hq : QueueFresh e)
    {m : Member I A} (hm : member e cfg.localId = some m) {md : Bytes} (hlen : md.length ≤ cfg.metaMaxSize) :
    let r := e.step cfg env (.updateMeta md)
    let n : NodeState I A := { id := cfg.localId, addr := cfg.advertise, metadata := md, state := .alive
                               pv := cfg.pv, dv := cfg.dv }
    let inc := (m.incarnation + 1) % 2 ^ 32
    r.2 = .result (.ok ()) ∧
    member r.1 cfg.localId = some { m with server := n, incarnation := inc } ∧
    (∀ id, id ≠ cfg.localId → member r.1 id = member e id) ∧
    r.1.core.events = e.core.events ++ [.nodeUpdated n] ∧
    Announces r.1 cfg.localId (.alive
      { incarnation := inc, metadata := md, node := { id := cfg.localId, addr := cfg.advertise }
        pv := cfg.pv, dv := cfg.dv }) := by
  intro r n inc
  have hg := reachable_good h
  have hinc : m.incarnation = e.core.incarnation := (hg.inv.local_get hm).inc
  have hm' : e.core.members.get cfg.localId = some m := hm
  have hstep : (e.updateMeta cfg env md) = ({ e with core := e.core.updateMeta cfg env md }, .ok ()) := by
    unfold Ep.updateMeta Ep.isRunning
    rw [if_neg (by simp [hr]), if_neg (by omega)]
  have h1 : r.1 = { e with core := e.core.updateMeta cfg env md } := by
    show (e.updateMeta cfg env md).1 = _
    rw [hstep]
  have hget : ∀ id, member r.1 id = if id = cfg.localId then some { m with server := n, incarnation := inc }
      else member e id := by
    intro id
    rw [h1, member_eq]
    show Table.get (Table.update e.core.members cfg.localId _) id = _
    rw [Table.get_update _ _ _ _ (by intro m _; rfl)]
    by_cases he : id = cfg.localId
    · subst he
      rw [if_pos rfl, if_pos rfl, hm']
      simp only [Option.map_some, inc, hinc]
      rfl
    · rw [if_neg he, if_neg he]; rfl
  refine ⟨?_, by rw [hget, if_pos rfl], fun id hne => by rw [hget, if_neg hne], ?_, ?_⟩
  · show Out.result (e.updateMeta cfg env md).2 = _
    rw [hstep]
  · rw [h1]; rfl
  · refine announces_of (q := e.core.bcast) (reachable_qok h) hq ?_
    rw [h1]
    simp only [inc, hinc]
    rfl

/-- A metadata update that is refused changes nothing. -/
theorem C57_refused {e : Ep I A} {md : Bytes}
    (h : e.core.lifecycle ≠ .running ∨ cfg.metaMaxSize < md.length) :
    ∃ err, e.step cfg env (.updateMeta md) = (e, .result (.error err)) := by
  show ∃ err, ((e.updateMeta cfg env md).1, Out.result (e.updateMeta cfg env md).2) = _
  unfold Ep.updateMeta Ep.isRunning
  by_cases hr : e.core.lifecycle = .running
  · rw [if_neg (by simp [hr]), if_pos (by rcases h with h | h; exact absurd hr h; exact h)]
    exact ⟨_, rfl⟩
  · rw [if_pos (by simp [hr])]
    exact ⟨_, rfl⟩

example : (member (Ex.after (Ex.h1 ++ [.updateMeta [5, 6]])) 0).map (fun m => (m.server.metadata, m.incarnation)) =
    some ([5, 6], 1) ∧ [5, 6].length ≤ Ex.cfg.metaMaxSize := by decide +kernel

end Verif.Props
