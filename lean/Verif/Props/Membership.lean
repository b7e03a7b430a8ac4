import Verif.Proof.Events
import Verif.Proof.Claims
import Verif.Example.Endpoint
/-
Membership: C29-C35, C44, C47-C49, C53, C55. Vocabulary: Spec/Membership.lean.
All theorems hold for every configuration and environment (codecs, random draws, delegates, float
formulas), and `Reachable` ranges over every finite history of calls with arbitrary arguments.
-/
namespace Verif.Props
open Verif Ep Spec
variable {I A : Type} [DecidableEq I] [DecidableEq A]
variable {cfg : Cfg I A} {env : Env I A}

/-! ### C29 -/

/-- Ids are unique, the local node is in its own table at its advertised address, alive while the node runs
and left afterwards, every member is in one of the four states, a member is suspected exactly when it has
a suspicion timer, and the cap on the number of members holds (the local node itself always has a place). -/
theorem C29_table {e : Ep I A} (h : Reachable cfg env e) :
    (e.core.members.map (fun m => m.server.id)).Nodup ∧
    (∃ m, member e cfg.localId = some m ∧ m.server.addr = cfg.advertise ∧
      m.state = (if e.core.lifecycle = .running then .alive else .left)) ∧
    (∀ m ∈ e.core.members, Live m ∨ Down m) ∧
    (∀ m ∈ e.core.members, m.state = .suspect ↔ m.susp.isSome = true) ∧
    (∀ max, cfg.maxMembers = some max → e.core.members.length ≤ Nat.max max 1) := by
  have hg := reachable_good h
  have hi := hg.inv
  have hget : ∀ m ∈ e.core.members, e.core.members.get m.id = some m :=
    fun m hm => (Table.get_iff hi.nodup).2 ⟨hm, rfl⟩
  refine ⟨hi.nodup, ?_, ?_, ?_, hi.cap⟩
  · obtain ⟨m, hm, hl⟩ := hi.loc
    refine ⟨m, hm, hl.addr, ?_⟩
    rw [hl.state]
    have := hg.settled
    cases hlc : e.core.lifecycle with
    | running => simp
    | leaving => exact absurd hlc this
    | left => simp
  · intro m hm
    rcases (hi.mem _ _ (hget m hm)).known with h | h | h | h
    · exact .inl (.inl h)
    · exact .inl (.inr h)
    · exact .inr (.inl h)
    · exact .inr (.inr h)
  · intro m hm
    exact (hi.mem _ _ (hget m hm)).susp.symm

/-- The timer index the node polls holds exactly the deadlines of the pending suspicions. -/
theorem C29_timers {e : Ep I A} (h : Reachable cfg env e) (id : I) (d : Nat) :
    e.core.suspIdx.deadlineOf id = some d ↔
      ∃ m s, member e id = some m ∧ m.state = .suspect ∧ m.susp = some s ∧ s.deadline = d := by
  have hi := (reachable_good h).inv
  rw [hi.dl]
  constructor
  · intro h1
    cases hm : e.core.members.get id with
    | none => rw [hm] at h1; cases h1
    | some m =>
      rw [hm] at h1
      cases hs : m.susp with
      | none => simp [hs] at h1
      | some s =>
        simp only [Option.bind_some, hs, Option.map_some, Option.some.injEq] at h1
        exact ⟨m, s, hm, (hi.mem _ _ hm).susp.1 (by rw [hs]; rfl), hs, h1⟩
  · rintro ⟨m, s, hm, _, hs, hd⟩
    have hm : e.core.members.get id = some m := hm
    rw [hm]
    simp [hs, hd]

example : Reachable Ex.cfg Ex.env (Ex.after Ex.h1) := Ex.after_reachable _
example : (Ex.after Ex.h1).core.members.length = 3 ∧
    (member (Ex.after Ex.h1) 1).map (fun m => m.state) = some .suspect := by decide +kernel

/-! ### C30 -/

/-- Replaying all membership events a node has reported, in order and with those still queued, succeeds
(no join of a node already up, no leave or update of a node not up) and gives exactly the members the
node considers up, with their current address and metadata. -/
theorem C30_replay {t0 : Nat} {e0 : Ep I A} (h0 : tryNew cfg env t0 = .ok e0) (ops : List (Op I A)) :
    replay (fun _ => none) (reported cfg env e0 ops) = some (liveView (Ep.run cfg env e0 ops)) := by
  rw [replay_run h0 ops]
  congr 1

/-- A history with a join, an update, a failure and a revival, some of its events already handed out. -/
def h2 : List (Op Nat Nat) :=
  Ex.h1 ++ [.pollEvent, .pollEvent, .packet 101 (Ex.alive 1 6 [9]) 40, .packet 102 (Ex.dead 2 3 1) 50,
    .packet 102 (Ex.alive 2 4) 60, .updateMeta [1, 2]]

example : tryNew Ex.cfg Ex.env 0 = .ok Ex.e0 := Ex.e0_ok
example : (reported Ex.cfg Ex.env Ex.e0 h2).map (fun ev => match ev with
    | .nodeJoined n => (0, n.id, n.metadata)
    | .nodeUpdated n => (1, n.id, n.metadata)
    | .nodeLeft n => (2, n.id, n.metadata)
    | _ => (3, 0, [])) =
    [(0, 0, [7]), (0, 1, [1]), (0, 2, []), (1, 1, [9]), (2, 2, []), (0, 2, []), (1, 0, [1, 2])] := by decide +kernel

/-! ### C31 -/

/-- Along any history, the incarnation recorded for a remote member does not decrease, nor does its address
change, while its generation lasts. -/
theorem C31_monotone {e : Ep I A} (h : Reachable cfg env e) (ops : List (Op I A)) {id : I} {m m' : Member I A}
    (hid : id ≠ cfg.localId) (hm : member e id = some m) (hm' : member (Ep.run cfg env e ops) id = some m')
    (hgen : m'.gen = m.gen) : m.incarnation ≤ m'.incarnation ∧ m'.server.addr = m.server.addr := by
  have hg := reachable_good h
  refine generation_run hg ops hid m.gen m.incarnation m.server.addr ⟨(hg.inv.mem _ _ hm).gen, ?_⟩ m' hm' hgen
  intro m1 h1 _
  have hm1 : e.core.members.get id = some m := hm
  rw [hm1] at h1; cases h1
  exact ⟨Nat.le_refl _, rfl⟩

/-- A record in the table starts a new generation only when an Alive claim from another address takes the
id over: the member had left or was dead beyond the reclaim time, or the same call also reports it gone. -/
theorem C31_generation {e : Ep I A} (h : Reachable cfg env e) (op : Op I A) {id : I} {m m' : Member I A}
    (hm : member e id = some m) (hm' : member (e.step cfg env op).1 id = some m') (hgen : m'.gen ≠ m.gen) :
    ∃ a now, HearsAlive op a now ∧ a.node.id = id ∧ a.node.addr ≠ m.server.addr ∧ id ≠ cfg.localId ∧
      (MayReclaim cfg m now ∨ ∃ inc, HearsDead id op inc ∧ m.incarnation ≤ inc) :=
  takeover (reachable_good h) op hm hm' (.inl hgen)

/-- A Suspect or Dead claim with an incarnation below the recorded one changes nothing at all. -/
theorem C31_stale_accusation {e : Ep I A} {m : Member I A} {s : BadState I} (h : member e s.node = some m)
    (hi : s.incarnation < m.incarnation) (src : A) (now : Nat) :
    (e.step cfg env (.packet src (.suspect s) now)).1 = e ∧ (e.step cfg env (.packet src (.dead s) now)).1 = e :=
  ⟨stale_suspect h hi src now, stale_dead h hi src now⟩

/-- An Alive claim from the recorded address with a lower incarnation, or for a remote member with the same
one, changes nothing (`tick` counts the questions put to the environment and is not part of the node). -/
theorem C31_stale_alive {e : Ep I A} {m : Member I A} {a : Alive I A} (h : member e a.node.id = some m)
    (haddr : m.server.addr = a.node.addr)
    (hi : a.incarnation < m.incarnation ∨ (a.incarnation = m.incarnation ∧ a.node.id ≠ cfg.localId))
    (src : A) (now : Nat) :
    ∃ t, (e.step cfg env (.packet src (.alive a) now)).1 = { e with tick := t } :=
  stale_alive h haddr hi src now

example : (member (Ex.after Ex.h1) 1).map (fun m => (m.incarnation, m.gen)) = some (5, 2) ∧
    (member (Ex.after h2) 1).map (fun m => (m.incarnation, m.gen)) = some (6, 2) := by decide +kernel
/-- A takeover: node 1 leaves, then its id is claimed from another address at a lower incarnation. -/
example : (member (Ex.after (Ex.h1 ++ [.packet 101 (Ex.dead 1 5 1) 40])) 1).map
      (fun m => (m.incarnation, m.gen, m.server.addr, m.state)) = some (5, 2, 101, .left) ∧
    (member (Ex.after (Ex.h1 ++ [.packet 101 (Ex.dead 1 5 1) 40, .packet 7 (.alive
      { incarnation := 0, metadata := [], node := { id := 1, addr := 7 }, pv := .v1, dv := .v1 }) 50])) 1).map
      (fun m => (m.incarnation, m.gen, m.server.addr, m.state)) = some (0, 4, 7, .alive) := by decide +kernel

/-! ### C32 -/

/-- A member that is dead or left becomes alive again only through an Alive claim: with a strictly higher
incarnation from its own address, or from another address under the reclaim rule. -/
theorem C32_revival {e : Ep I A} (h : Reachable cfg env e) (op : Op I A) {id : I} {m m' : Member I A}
    (hm : member e id = some m) (hd : Down m) (hm' : member (e.step cfg env op).1 id = some m') (hl : Live m') :
    ∃ a now, HearsAlive op a now ∧ a.node.id = id ∧ id ≠ cfg.localId ∧
      ((a.node.addr = m.server.addr ∧ m.incarnation < a.incarnation) ∨
       (a.node.addr ≠ m.server.addr ∧ MayReclaim cfg m now)) :=
  revival (reachable_good h) op hm hd hm' hl

/-- Suspect and Dead claims about a member that is gone change nothing, whatever their incarnation. -/
theorem C32_accusations {e : Ep I A} (h : Reachable cfg env e) {m : Member I A} {s : BadState I}
    (hm : member e s.node = some m) (hd : Down m) (src : A) (now : Nat) :
    (e.step cfg env (.packet src (.suspect s) now)).1 = e ∧ (e.step cfg env (.packet src (.dead s) now)).1 = e :=
  ⟨down_suspect (reachable_good h) hm hd src now, down_dead hm hd src now⟩

/-- Node 2 is dead at incarnation 3; an Alive claim at 3 is ignored, one at 4 revives it. -/
example : let dead := Ex.h1 ++ [.packet 102 (Ex.dead 2 3 1) 50]
    (member (Ex.after dead) 2).map (fun m => m.state) = some .dead ∧
    (member (Ex.after (dead ++ [.packet 102 (Ex.alive 2 3) 60])) 2).map (fun m => m.state) = some .dead ∧
    (member (Ex.after (dead ++ [.packet 102 (Ex.alive 2 4) 60])) 2).map (fun m => m.state) = some .alive := by
  decide +kernel

/-! ### C33 -/

/-- A running node accused, by a Suspect or Dead claim at an incarnation not below its own, stays alive and
running, raises its incarnation above the accusation and queues an Alive claim about itself with the new
incarnation. The accusation must not be at the largest `u32`, see `C33_wrap`. -/
theorem C33_refute {e : Ep I A} (h : Reachable cfg env e) (hr : e.core.lifecycle = .running) (hq : QueueFresh e)
    {m : Member I A} (hm : member e cfg.localId = some m) {s : BadState I} (hn : s.node = cfg.localId)
    (hi : m.incarnation ≤ s.incarnation) (hw : s.incarnation < 2 ^ 32 - 1) {msg : Message I A}
    (hmsg : msg = .suspect s ∨ msg = .dead s) (src : A) (now : Nat) :
    ∃ m', member (e.step cfg env (.packet src msg now)).1 cfg.localId = some m' ∧ m'.state = .alive ∧
      s.incarnation < m'.incarnation ∧ m'.server = m.server ∧
      (e.step cfg env (.packet src msg now)).1.core.lifecycle = .running ∧
      Announces (e.step cfg env (.packet src msg now)).1 cfg.localId
        (.alive { incarnation := m'.incarnation, metadata := m.server.metadata
                  node := { id := m.server.id, addr := m.server.addr }, pv := m.server.pv, dv := m.server.dv }) := by
  have hg := reachable_good h
  have hst : m.state = .alive := by have := (hg.inv.local_get hm).state; rw [hr] at this; simpa using this
  have hinc : s.incarnation < Core.refuteInc m.incarnation s.incarnation := by
    unfold Core.refuteInc
    rw [Nat.mod_eq_of_lt (a := m.incarnation + 1) (by omega), Nat.mod_eq_of_lt (a := s.incarnation + 1) (by omega)]
    split <;> omega
  have key : ∀ e', e' = { e with core := e.core.refute cfg env s.incarnation, tick := e.tick } →
      ∃ m', member e' cfg.localId = some m' ∧ m'.state = .alive ∧
      s.incarnation < m'.incarnation ∧ m'.server = m.server ∧ e'.core.lifecycle = .running ∧
      Announces e' cfg.localId (.alive (Core.aliveOf m.server m'.incarnation)) := by
    rintro e' rfl
    obtain ⟨h1, h2, h3⟩ := refute_spec (t := e.tick) hr hg (reachable_qok h) hq hm (acc := s.incarnation) rfl
    exact ⟨_, h1, hst, hinc, rfl, h2, h3⟩
  rcases hmsg with rfl | rfl
  · exact key _ (by rw [packet_suspect hr, suspect_local hr hg.inv hm hn now hi])
  · exact key _ (by rw [packet_dead hr, dead_local hr hg.inv hm hn now hi])

/-- Another node using the local id and address: an Alive claim about the local node above its own
incarnation is refuted in the same way. -/
theorem C33_impersonation {e : Ep I A} (h : Reachable cfg env e) (hr : e.core.lifecycle = .running) (hq : QueueFresh e)
    {m : Member I A} (hm : member e cfg.localId = some m) {a : Alive I A}
    (hn : a.node = { id := cfg.localId, addr := cfg.advertise })
    (hi : m.incarnation < a.incarnation) (hw : a.incarnation < 2 ^ 32 - 1)
    (hok : env.aliveOk e.tick (Core.nodeOf a .alive) = true) (src : A) (now : Nat) :
    ∃ m', member (e.step cfg env (.packet src (.alive a) now)).1 cfg.localId = some m' ∧ m'.state = .alive ∧
      a.incarnation < m'.incarnation ∧ m'.server = m.server ∧
      (e.step cfg env (.packet src (.alive a) now)).1.core.lifecycle = .running ∧
      Announces (e.step cfg env (.packet src (.alive a) now)).1 cfg.localId
        (.alive { incarnation := m'.incarnation, metadata := m.server.metadata
                  node := { id := m.server.id, addr := m.server.addr }, pv := m.server.pv, dv := m.server.dv }) := by
  have hg := reachable_good h
  have hlo := hg.inv.local_get hm
  have hst : m.state = .alive := by have := hlo.state; rw [hr] at this; simpa using this
  have hinc : a.incarnation < Core.refuteInc m.incarnation a.incarnation := by
    unfold Core.refuteInc
    rw [Nat.mod_eq_of_lt (a := m.incarnation + 1) (by omega), Nat.mod_eq_of_lt (a := a.incarnation + 1) (by omega)]
    split <;> omega
  have hc : Core.Good cfg (e.core.clearSuspicion cfg.localId) := ⟨hg.inv.clearLocal rfl, hg.settled⟩
  have hm' : member { e with core := e.core.clearSuspicion cfg.localId } cfg.localId = some m := by
    show (e.core.clearSuspicion cfg.localId).members.get cfg.localId = _
    rw [clearSuspicion_local hg.inv]; exact hm
  have hstep : (e.step cfg env (.packet src (.alive a) now)).1 =
      { e with core := (e.core.clearSuspicion cfg.localId).refute cfg env a.incarnation, tick := e.tick + 1 } := by
    rw [packet_alive hr, hok]
    congr 1
    unfold Core.processAlive
    rw [if_neg (by simp [hr])]
    simp only [Bool.not_true, Bool.false_eq_true, if_false]
    unfold Core.processAliveDecided Core.admitAlive
    have hm2 : e.core.members.get cfg.localId = some m := hm
    have hlt : ¬ a.incarnation < m.incarnation := by omega
    have hne : ¬ a.incarnation = m.incarnation := by omega
    simp [hn, hm2, hlo.addr, hlt, hne]
  rw [hstep]
  obtain ⟨h1, h2, h3⟩ := refute_spec (e := { e with core := e.core.clearSuspicion cfg.localId }) (t := e.tick + 1) hr hc
    (show Core.QOk env e.core.bcast from reachable_qok h) hq hm' (acc := a.incarnation) rfl
  exact ⟨_, h1, hst, hinc, rfl, h2, h3⟩

/-- The exception, which the code has: accused at the largest `u32`, the node wraps its incarnation around
to 0, below the accusation. -/
theorem C33_wrap {e : Ep I A} (h : Reachable cfg env e) (hr : e.core.lifecycle = .running)
    {m : Member I A} (hm : member e cfg.localId = some m) {s : BadState I} (hn : s.node = cfg.localId)
    (hi : m.incarnation ≤ s.incarnation) (hw : s.incarnation = 2 ^ 32 - 1) (src : A) (now : Nat) :
    ∃ m', member (e.step cfg env (.packet src (.suspect s) now)).1 cfg.localId = some m' ∧ m'.incarnation = 0 := by
  have hg := reachable_good h
  rw [packet_suspect hr, suspect_local hr hg.inv hm hn now hi]
  refine ⟨{ m with incarnation := 0 }, ?_, rfl⟩
  · show (e.core.refute cfg env s.incarnation).members.get cfg.localId = _
    rw [Core.get_refute hr hm, if_pos rfl]
    have : Core.refuteInc e.core.incarnation s.incarnation = 0 := by
      unfold Core.refuteInc
      rw [hw, if_pos (by have := Nat.mod_lt (e.core.incarnation + 1) (show 2 ^ 32 > 0 by decide); omega)]
      decide
    rw [this]

/-- Node 0 is accused at incarnation 8. -/
example : (Ex.after Ex.h1).core.lifecycle = .running ∧ QueueFresh (Ex.after Ex.h1) ∧
    (member (Ex.after Ex.h1) 0).map (fun m => m.incarnation) = some 0 ∧
    (member (Ex.after (Ex.h1 ++ [.packet 102 (Ex.suspect 0 8 2) 60])) 0).map (fun m => (m.incarnation, m.state)) =
      some (9, .alive) ∧
    (member (Ex.after (Ex.h1 ++ [.packet 102 (Ex.dead 0 8 2) 60])) 0).map (fun m => (m.incarnation, m.state)) =
      some (9, .alive) := by
  refine ⟨by decide +kernel, ?_, by decide +kernel, by decide +kernel, by decide +kernel⟩
  unfold QueueFresh
  decide +kernel

/-! ### C34 -/

/-- A remote member that goes from up to down in a call does so either because the call delivers a Dead
claim (or a left entry of a push/pull) at an incarnation not below the recorded one, or because timers were
serviced at a time `now` by which the member had been suspected for at least the minimum suspicion time of
some cluster size `n`; in the second case it is recorded dead at the incarnation it was suspected at. Times
must not run backwards, and the maximum suspicion multiplier must not be zero. -/
theorem C34_failure {t0 : Nat} {e0 : Ep I A} (h0 : tryNew cfg env t0 = .ok e0)
    (hmult : 1 ≤ cfg.suspicionMaxTimeoutMult) (ops : List (Op I A)) (op : Op I A)
    (hch : Chronological t0 (ops ++ [op])) {id : I} {m m' : Member I A} (hid : id ≠ cfg.localId)
    (hm : member (Ep.run cfg env e0 ops) id = some m) (hl : Live m)
    (hm' : member (Ep.run cfg env e0 (ops ++ [op])) id = some m') (hd : Down m') :
    (∃ inc, HearsDead id op inc ∧ m.incarnation ≤ inc) ∨
      (∃ now n, op = .timeout now ∧ m.state = .suspect ∧ 1 ≤ n ∧
        m.stateChange + env.suspMinMs n * MS ≤ now ∧ m'.state = .dead ∧ m'.incarnation = m.incarnation ∧
        m'.stateChange = now) :=
  own_failure h0 hmult ops op hch hid hm hl hm' hd

/-- `m.stateChange` is the time the suspicion began, and it has not been interrupted: there is a call at
that time after which the member has been suspected, at this incarnation, at every point of the history. -/
theorem C34_continuous {t0 : Nat} {e0 : Ep I A} (h0 : tryNew cfg env t0 = .ok e0) (ops : List (Op I A)) {id : I}
    {m : Member I A} (hm : member (Ep.run cfg env e0 ops) id = some m) (hs : m.state = .suspect) :
    ∃ pre op post, ops = pre ++ op :: post ∧ m.stateChange ∈ op.times ∧
      ∀ mid rest, post = mid ++ rest → ∃ m1, member (Ep.run cfg env e0 (pre ++ op :: mid)) id = some m1 ∧
        m1.state = .suspect ∧ m1.stateChange = m.stateChange ∧ m1.incarnation = m.incarnation :=
  suspected_since h0 ops hm hs

/-- Without a chronology: the failure of a remote member is either heard or the expiry of its suspicion
timer. -/
theorem C34_deadline {e : Ep I A} (h : Reachable cfg env e) (op : Op I A) {id : I} {m m' : Member I A}
    (hid : id ≠ cfg.localId) (hm : member e id = some m) (hl : Live m)
    (hm' : member (e.step cfg env op).1 id = some m') (hd : Down m') :
    (∃ inc, HearsDead id op inc ∧ m.incarnation ≤ inc) ∨
      (∃ now s, op = .timeout now ∧ m.susp = some s ∧ s.deadline ≤ now ∧
        m' = { m with susp := none, state := .dead, stateChange := now }) :=
  going_down (reachable_good h) op hid hm hl hm' hd

/-- Nodes 1, 2 and 3 join, node 1 is suspected by node 2. -/
def h3 : List (Op Nat Nat) :=
  [.packet 101 (Ex.alive 1 5 [1]) 10, .packet 102 (Ex.alive 2 3) 20, .packet 103 (Ex.alive 3 3) 20,
    .packet 102 (Ex.suspect 1 5 2) 30]

/-- With four members the minimum is `4000 * 4` ms. Node 1, suspected at 30, is still suspected just before
its deadline and dead at it. The deadline is the maximum one, six times the minimum, as nobody confirmed. -/
example : let d := 30 + 6 * 16000 * MS
    1 ≤ Ex.cfg.suspicionMaxTimeoutMult ∧ (1 : Nat) ≠ Ex.cfg.localId ∧
    (member (Ex.after (h3 ++ [.timeout (d - 1)])) 1).map (fun m => m.state) = some .suspect ∧
    (member (Ex.after (h3 ++ [.timeout d])) 1).map (fun m => (m.state, m.stateChange)) = some (.dead, d) := by
  decide +kernel
example : Chronological 0 (h3 ++ [.timeout (30 + 6 * 16000 * MS)]) := by
  constructor
  · intro op _ t _; exact Nat.zero_le _
  · simp only [h3, List.cons_append, List.nil_append, List.pairwise_cons, List.mem_cons, forall_eq_or_imp, List.not_mem_nil,
      false_imp_iff, implies_true, and_true, List.Pairwise.nil]
    simp [Op.times, Op.time?, Op.probeTime, Ex.alive, Ex.suspect]
    decide

/-- With the maximum multiplier 0, which the configuration accepts, a member is declared dead in the
instant in which it is suspected. -/
theorem C34_zero_mult_witness :
    let cfg0 := { Ex.cfg with suspicionMaxTimeoutMult := 0 }
    ∃ e0, tryNew cfg0 Ex.env 0 = .ok e0 ∧
      (member (Ep.run cfg0 Ex.env e0 (h3 ++ [.timeout 30])) 1).map (fun m => (m.state, m.stateChange)) =
        some (.dead, 30) := by
  intro cfg0
  cases hn : tryNew cfg0 Ex.env 0 with
  | error x =>
    have h : (match tryNew cfg0 Ex.env 0 with | .ok _ => true | .error _ => false) = true := by decide +kernel
    rw [hn] at h; cases h
  | ok e =>
    refine ⟨e, rfl, ?_⟩
    rw [tryNew_eq hn]
    decide +kernel

/-! ### C35 -/

/-- No input makes a node suspect itself or declare itself dead. -/
theorem C35_never_failed {e : Ep I A} (h : Reachable cfg env e) :
    ∃ m, member e cfg.localId = some m ∧ m.state ≠ .suspect ∧ m.state ≠ .dead := by
  obtain ⟨m, hm, _, hs⟩ := (C29_table h).2.1
  refine ⟨m, hm, ?_, ?_⟩ <;> rw [hs] <;> split <;> simp

/-- A node that was never told to leave is running and alive in its own table. -/
theorem C35_only_by_leave {t0 : Nat} {e0 : Ep I A} (h0 : tryNew cfg env t0 = .ok e0) (ops : List (Op I A))
    (hno : ∀ op ∈ ops, ∀ now f, op ≠ .leave now f) :
    ∃ m, member (Ep.run cfg env e0 ops) cfg.localId = some m ∧ m.state = .alive := by
  have hrun : (Ep.run cfg env e0 ops).core.lifecycle = .running := by
    have : ∀ (ops : List (Op I A)) (e : Ep I A), Core.Good cfg e.core → e.core.lifecycle = .running →
        (∀ op ∈ ops, ∀ now f, op ≠ .leave now f) → (Ep.run cfg env e ops).core.lifecycle = .running := by
      intro ops
      induction ops with
      | nil => intro e _ h _; exact h
      | cons op ops ih =>
        intro e hg hl hno
        rw [run_cons]
        refine ih _ ((step_acts e op).good hg) ?_ (fun o ho => hno o (List.mem_cons_of_mem _ ho))
        refine (step_acts e op).inductGood (Q := fun c => c.lifecycle = .running) hg hl ?_
        intro c x hx hc hq
        rcases Core.act_lifecycle (env := env) hc x with h | ⟨now, rfl, _⟩
        · rw [h]; exact hq
        · cases hx
          exact absurd rfl (hno _ (List.mem_cons_self ..) _ _)
    exact this ops e0 (reachable_good (reachable_new h0)) (by rw [tryNew_core h0]; rfl) hno
  obtain ⟨m, hm, _, hs⟩ := (C29_table (reachable_run (reachable_new h0) ops)).2.1
  rw [if_pos hrun] at hs
  exact ⟨m, hm, hs⟩

/-- After leaving, nothing changes the local record any more. -/
theorem C35_left_forever {e : Ep I A} (h : Reachable cfg env e) {m : Member I A}
    (hm : member e cfg.localId = some m) (hs : m.state = .left) (ops : List (Op I A)) :
    member (Ep.run cfg env e ops) cfg.localId = some m := by
  have hg := reachable_good h
  have hl : e.core.lifecycle = .left := by
    obtain ⟨m1, h1, _, h2⟩ := (C29_table h).2.1
    rw [hm] at h1; cases h1
    rw [hs] at h2
    have := hg.settled
    cases hlc : e.core.lifecycle with
    | running => simp [hlc] at h2
    | leaving => exact absurd hlc this
    | left => rfl
  have key : ∀ (ops : List (Op I A)) (e : Ep I A), Core.Good cfg e.core → e.core.lifecycle = .left →
      member e cfg.localId = some m → member (Ep.run cfg env e ops) cfg.localId = some m := by
    intro ops
    induction ops with
    | nil => intro e _ _ h; exact h
    | cons op ops ih =>
      intro e hg hl hm
      rw [run_cons]
      have : (e.step cfg env op).1.core.lifecycle = .left ∧
          (e.step cfg env op).1.core.members.get cfg.localId = some m := by
        refine step_induct (Q := fun c => c.lifecycle = .left ∧ c.members.get cfg.localId = some m) hg op
          cfg.localId ⟨hl, hm⟩ ?_
        rintro c x hx hc ⟨hq1, hq2⟩ hch
        refine ⟨?_, ?_⟩
        · rcases Core.act_lifecycle (env := env) hc x with h | ⟨now, rfl, hr, _⟩
          · rw [h]; exact hq1
          · rw [hq1] at hr; cases hr
        · rw [hq2] at hch
          revert hch
          generalize (Core.act cfg env c x).members.get cfg.localId = o'
          intro hch
          cases hch with
          | same => rfl
          | reaped pick now m hr => simp [Core.reapable, Table.get_id hq2] at hr
          | refuted x m acc _ h => rw [hq1] at h; cases h
          | metadata md m _ h => rw [hq1] at h; cases h
          | left now m _ h => rw [hq1] at h; cases h
          | _ => first | contradiction | (rename_i h _ _; exact absurd rfl h)
      exact ih _ ((step_acts e op).good hg) this.1 this.2
  exact key ops e hg hl hm

example : (member (Ex.after (Ex.h1 ++ [.leave 50 none])) 0).map (fun m => m.state) = some .left ∧
    (member (Ex.after (Ex.h1 ++ [.leave 50 none, .packet 102 (Ex.alive 0 9) 60, .packet 102 (Ex.suspect 0 9 2) 60,
      .timeout 70, .leave 80 none])) 0).map (fun m => (m.state, m.incarnation)) = some (.left, 0) := by decide +kernel

/-! ### C44 -/

/-- A record disappears only when timers are serviced or the table is reset, and only that of a remote
member which was dead or left for longer than the grace period. -/
theorem C44_reaped {e : Ep I A} (h : Reachable cfg env e) (op : Op I A) {id : I} {m : Member I A}
    (hm : member e id = some m) (hm' : member (e.step cfg env op).1 id = none) :
    ∃ now, (op = .timeout now ∨ op = .resetNodes now) ∧ id ≠ cfg.localId ∧ Down m ∧
      cfg.gossipToTheDead < now - m.stateChange :=
  disappearance (reachable_good h) op hm hm'

/-- A reset keeps, up to order, exactly the other records. -/
theorem C44_reset {e : Ep I A} (h : Reachable cfg env e) (now : Nat) :
    (e.step cfg env (.resetNodes now)).1.core.members.Perm (e.core.members.filter (fun m =>
      !(decide (m.server.id ≠ cfg.localId) && decide (Down m) && decide (cfg.gossipToTheDead < now - m.stateChange)))) := by
  have hi := (reachable_good h).inv
  show (e.core.resetNodes cfg (env.tape e.tick) now).members.Perm _
  unfold Core.resetNodes
  dsimp only
  refine (Table.shuffle_perm _ _).trans ?_
  have hfold : ∀ (ids : List I) (c : Core I A),
      (ids.foldl (fun c id => { c with suspIdx := c.suspIdx.set id none, members := c.members.remove id }) c).members =
        c.members.filter (fun m => decide (m.id ∉ ids)) := by
    intro ids
    induction ids with
    | nil => intro c; simp
    | cons id ids ih =>
      intro c
      rw [List.foldl_cons, ih]
      show (c.members.remove id).filter _ = _
      unfold Table.remove
      rw [List.filter_filter]
      congr 1
      funext m
      by_cases h1 : m.id = id <;> simp [h1]
  rw [hfold]
  have hmem : (if ((e.core.members.filter (fun m => Core.reapable cfg m now)).map Member.id).isEmpty then e.core
      else e.core.bump).members = e.core.members := by split <;> rfl
  rw [hmem]
  refine List.Perm.of_eq ?_
  apply List.filter_congr
  intro m hm
  have : m.id ∈ (e.core.members.filter (fun m => Core.reapable cfg m now)).map Member.id ↔
      Core.reapable cfg m now = true := by
    simp only [List.mem_map, List.mem_filter]
    constructor
    · rintro ⟨m1, ⟨h1, h2⟩, h3⟩
      have g1 := (Table.get_iff hi.nodup).2 ⟨h1, h3⟩
      have g2 := (Table.get_iff hi.nodup).2 ⟨hm, rfl⟩
      rw [g1] at g2; cases g2
      exact h2
    · intro h; exact ⟨m, ⟨hm, h⟩, rfl⟩
  rw [decide_eq_decide.2 (not_congr this), decide_not]
  simp only [Bool.decide_eq_true]
  rfl

/-- Node 2, dead since 50 with a grace period of 30 s, survives a reset at `50 + 30 s` and not the next
nanosecond. -/
example : let dead := Ex.h1 ++ [.packet 102 (Ex.dead 2 3 1) 50]
    (member (Ex.after (dead ++ [.resetNodes (50 + 30000 * MS)])) 2).isSome = true ∧
    (member (Ex.after (dead ++ [.resetNodes (51 + 30000 * MS)])) 2) = none ∧
    (member (Ex.after (dead ++ [.resetNodes (51 + 30000 * MS)])) 1).isSome = true := by decide +kernel

/-! ### C47 -/

/-- Merging a push/pull list is the same as receiving, one by one, the claims its entries make: an alive
entry an Alive claim, a left entry a Dead claim, a dead or suspect entry only a Suspect claim (from the local
node), an entry in an unknown state nothing. -/
theorem C47_merge_is_claims {e : Ep I A} (h : Reachable cfg env e) (hr : e.core.lifecycle = .running)
    (states : List (PushNodeState I A)) (src : A) (now : Nat) :
    (e.step cfg env (.mergeState states now)).1 = Ep.run cfg env e
      ((states.filterMap (entryMessage cfg.localId)).map (fun m => .packet src m now)) :=
  merge_entries (reachable_good h) hr states src now

/-- A push/pull without a left entry about a member never takes it from up to down. -/
theorem C47_no_kill {e : Ep I A} (h : Reachable cfg env e) (op : Op I A) (hop : op.remote ≠ []) {id : I} {m : Member I A}
    (hid : id ≠ cfg.localId) (hm : member e id = some m) (hl : Live m)
    (hno : ∀ r ∈ op.remote, r.id = id → r.state ≠ .left) :
    ∃ m', member (e.step cfg env op).1 id = some m' ∧ Live m' := by
  cases hm' : member (e.step cfg env op).1 id with
  | none =>
    obtain ⟨now, h1, _⟩ := C44_reaped h op hm hm'
    rcases h1 with rfl | rfl <;> exact absurd rfl hop
  | some m' =>
    refine ⟨m', rfl, ?_⟩
    apply Classical.byContradiction
    intro hnl
    have hd : Down m' := by
      rcases (C29_table (reachable_step h op)).2.2.1 m' (Table.get_mem hm') with h | h
      · exact absurd h hnl
      · exact h
    rcases C34_deadline h op hid hm hl hm' hd with ⟨inc, hh, _⟩ | ⟨now, s, rfl, _⟩
    · cases hh with
      | packet => exact hop rfl
      | merge _ r hr hs he => exact hno r hr he hs
    · exact hop rfl

/-- An entry of a push/pull list. -/
def entry (id inc : Nat) (st : NState) : PushNodeState Nat Nat :=
  { id := id, addr := 100 + id, metadata := [], incarnation := inc, state := st, pv := .v1, dv := .v1 }

/-- A remote view in which nodes 1 and 2 are dead only makes them suspected. -/
example : let op : Op Nat Nat := .mergeState [entry 1 5 .dead, entry 2 3 .dead, entry 3 0 .alive] 40
    op.remote ≠ [] ∧
    (Ex.after (Ex.h1 ++ [op])).core.members.map (fun m => (m.server.id, m.state)) =
      [(3, .alive), (0, .alive), (1, .suspect), (2, .suspect)] := by decide +kernel

/-! ### C48 -/

/-- Alive claims delivered to a running node in any order and number: if the claims about `id` come from its
recorded address and the filter accepts them, the recorded incarnation ends up as the highest of them (and of
the one recorded before), and unless no claim was newer, the record describes a claim with that incarnation. -/
theorem C48_highest_wins {e : Ep I A} (h : Reachable cfg env e) (hr : e.core.lifecycle = .running) {id : I}
    (hid : id ≠ cfg.localId) (hok : ∀ t n, n.id = id → env.aliveOk t n = true) {m : Member I A}
    (hm : member e id = some m) (l : List (A × Alive I A × Nat))
    (hl : ∀ d ∈ l, d.2.1.node.id = id → d.2.1.node.addr = m.server.addr) :
    ∃ m', member (Ep.run cfg env e (deliverAlive l)) id = some m' ∧ m.incarnation ≤ m'.incarnation ∧
      (∀ d ∈ l, d.2.1.node.id = id → d.2.1.incarnation ≤ m'.incarnation) ∧
      (m' = m ∨ ∃ d ∈ l, d.2.1.node.id = id ∧ m.incarnation < d.2.1.incarnation ∧
        m'.incarnation = d.2.1.incarnation ∧ m'.state = .alive ∧ m'.server.metadata = d.2.1.metadata ∧
        m'.server.pv = d.2.1.pv ∧ m'.server.dv = d.2.1.dv) := by
  obtain ⟨m', h1, h2, h3, h4⟩ := claims_max hid hok l hl (reachable_good h) hr hm rfl
  refine ⟨m', h1, h2, h3, ?_⟩
  rcases h4 with h | ⟨d, hd, h5, h6, h7, h8, h9⟩
  · exact .inl h
  · exact .inr ⟨d, hd, h5, h6, h7, h8, by rw [h9]; rfl, by rw [h9]; rfl, by rw [h9]; rfl⟩

/-- The same for a node not known before, when the number of members is not capped. -/
theorem C48_highest_wins_new {e : Ep I A} (h : Reachable cfg env e) (hr : e.core.lifecycle = .running) {id : I}
    {addr : A} (hid : id ≠ cfg.localId) (hcap : cfg.maxMembers = none)
    (hok : ∀ t n, n.id = id → env.aliveOk t n = true) (hm : member e id = none) (l : List (A × Alive I A × Nat))
    (hl : ∀ d ∈ l, d.2.1.node.id = id → d.2.1.node.addr = addr) (hex : ∃ d ∈ l, d.2.1.node.id = id) :
    ∃ m', member (Ep.run cfg env e (deliverAlive l)) id = some m' ∧
      (∀ d ∈ l, d.2.1.node.id = id → d.2.1.incarnation ≤ m'.incarnation) ∧
      (∃ d ∈ l, d.2.1.node.id = id ∧ m'.incarnation = d.2.1.incarnation ∧ m'.state = .alive ∧
        m'.server.addr = addr ∧ m'.server.metadata = d.2.1.metadata) := by
  obtain ⟨m', h1, h3, d, hd, h5, h6, h7, h8⟩ := claims_max_new hid hcap hok l hl hex (reachable_good h) hr hm
  exact ⟨m', h1, h3, d, hd, h5, h6, h7, by rw [h8]; exact hl d hd h5, by rw [h8]; rfl⟩

/-- Order and duplication do not matter: two deliveries with the same claims about `id` give the same
incarnation, and the same metadata when claims of equal incarnation agree on it. -/
theorem C48_order_independent {e : Ep I A} (h : Reachable cfg env e) (hr : e.core.lifecycle = .running) {id : I}
    (hid : id ≠ cfg.localId) (hok : ∀ t n, n.id = id → env.aliveOk t n = true) {m : Member I A}
    (hm : member e id = some m) (l l' : List (A × Alive I A × Nat))
    (hl : ∀ d ∈ l, d.2.1.node.id = id → d.2.1.node.addr = m.server.addr)
    (hsame : ∀ a : Alive I A, a.node.id = id → ((∃ d ∈ l, d.2.1 = a) ↔ (∃ d ∈ l', d.2.1 = a)))
    (hagree : ∀ d ∈ l, ∀ d' ∈ l, d.2.1.node.id = id → d'.2.1.node.id = id →
      d.2.1.incarnation = d'.2.1.incarnation → d.2.1.metadata = d'.2.1.metadata) :
    ∃ m1 m2, member (Ep.run cfg env e (deliverAlive l)) id = some m1 ∧
      member (Ep.run cfg env e (deliverAlive l')) id = some m2 ∧ m1.incarnation = m2.incarnation ∧
      m1.server.addr = m2.server.addr ∧ m1.server.metadata = m2.server.metadata := by
  have hl' : ∀ d ∈ l', d.2.1.node.id = id → d.2.1.node.addr = m.server.addr := by
    intro d hd hn
    obtain ⟨d1, hd1, e1⟩ := (hsame d.2.1 hn).2 ⟨d, hd, rfl⟩
    rw [← e1]; exact hl d1 hd1 (by rw [e1]; exact hn)
  obtain ⟨m1, a1, a2, a3, a4⟩ := claims_max hid hok l hl (reachable_good h) hr hm rfl
  obtain ⟨m2, b1, b2, b3, b4⟩ := claims_max hid hok l' hl' (reachable_good h) hr hm rfl
  have le12 : m1.incarnation ≤ m2.incarnation := by
    rcases a4 with rfl | ⟨d, hd, h5, _, h7, _⟩
    · exact b2
    · obtain ⟨d1, hd1, e1⟩ := (hsame d.2.1 h5).1 ⟨d, hd, rfl⟩
      have := b3 d1 hd1 (by rw [e1]; exact h5)
      rw [e1] at this; omega
  have le21 : m2.incarnation ≤ m1.incarnation := by
    rcases b4 with rfl | ⟨d, hd, h5, _, h7, _⟩
    · exact a2
    · obtain ⟨d1, hd1, e1⟩ := (hsame d.2.1 h5).2 ⟨d, hd, rfl⟩
      have := a3 d1 hd1 (by rw [e1]; exact h5)
      rw [e1] at this; omega
  refine ⟨m1, m2, a1, b1, by omega, ?_⟩
  rcases a4 with rfl | ⟨d, hd, h5, h6, h7, h8, h9⟩
  · rcases b4 with rfl | ⟨d', _, _, g6, g7, _, _⟩
    · exact ⟨rfl, rfl⟩
    · omega
  · rcases b4 with rfl | ⟨d', hd', g5, g6, g7, g8, g9⟩
    · omega
    · obtain ⟨d1, hd1, e1⟩ := (hsame d'.2.1 g5).2 ⟨d', hd', rfl⟩
      rw [h9, g9]
      refine ⟨?_, ?_⟩
      · show d.2.1.node.addr = d'.2.1.node.addr
        rw [hl d hd h5, hl' d' hd' g5]
      · show d.2.1.metadata = d'.2.1.metadata
        have := hagree d hd d1 hd1 h5 (by rw [e1]; exact g5) (by rw [e1]; omega)
        rw [this, e1]

/-- Claims about node 1 (recorded at 5) with incarnations 7, 6, 7, 2, in two orders. -/
def claim1 (inc : Nat) (md : Bytes) : Alive Nat Nat :=
  { incarnation := inc, metadata := md, node := { id := 1, addr := 101 }, pv := .v1, dv := .v1 }
example : let l : List (Nat × Alive Nat Nat × Nat) :=
      [(101, claim1 7 [7], 50), (9, claim1 6 [6], 51), (101, claim1 7 [7], 52), (102, claim1 2 [2], 53)]
    (member (Ex.after (Ex.h1 ++ deliverAlive l)) 1).map (fun m => (m.incarnation, m.server.metadata)) = some (7, [7]) ∧
    (member (Ex.after (Ex.h1 ++ deliverAlive l.reverse)) 1).map (fun m => (m.incarnation, m.server.metadata)) =
      some (7, [7]) := by decide +kernel
example : ∀ t n, n.id = (1 : Nat) → Ex.env.aliveOk t n = true := by intro t n h; show decide (n.id < 200) = true; rw [h]; rfl

/-! ### C49 -/

/-- An Alive claim from another address about a member that is up only produces a conflict
notification. -/
theorem C49_conflict {e : Ep I A} (hr : e.core.lifecycle = .running) {m : Member I A} {a : Alive I A}
    (hm : member e a.node.id = some m) (haddr : a.node.addr ≠ m.server.addr) (hl : Live m)
    (hok : env.aliveOk e.tick (Core.nodeOf a .alive) = true) (src : A) (now : Nat) :
    ∃ t, (e.step cfg env (.packet src (.alive a) now)).1 =
      { e with
        core := { e.core with
          events := e.core.events ++ [.nodeConflict m.server
            { id := a.node.id, addr := a.node.addr, metadata := a.metadata, state := .alive, pv := a.pv, dv := a.dv }] }
        tick := t } := by
  refine ⟨e.tick + 1, ?_⟩
  rw [conflict hr hm (fun e => haddr e.symm) ?_ hok]
  · rfl
  · intro h
    refine live_not_down hl ?_
    rcases h with h | ⟨h, _⟩
    · exact .inr h
    · exact .inl h

/-- No call changes the recorded address of a member, except when a claim from another address takes over
the id of a member that left or has been dead beyond the reclaim time, or that the same call reports gone. -/
theorem C49_address {e : Ep I A} (h : Reachable cfg env e) (op : Op I A) {id : I} {m m' : Member I A}
    (hm : member e id = some m) (hm' : member (e.step cfg env op).1 id = some m')
    (hc : m'.server.addr ≠ m.server.addr) :
    ∃ a now, HearsAlive op a now ∧ a.node.id = id ∧ a.node.addr ≠ m.server.addr ∧ id ≠ cfg.localId ∧
      (MayReclaim cfg m now ∨ ∃ inc, HearsDead id op inc ∧ m.incarnation ≤ inc) :=
  takeover (reachable_good h) op hm hm' (.inr hc)

/-- Somebody at address 7 claims to be node 1, which is suspected. -/
example : let a : Alive Nat Nat := { incarnation := 99, metadata := [], node := { id := 1, addr := 7 }, pv := .v1, dv := .v1 }
    (Ex.after Ex.h1).core.lifecycle = .running ∧
    Ex.env.aliveOk (Ex.after Ex.h1).tick (Core.nodeOf a .alive) = true ∧
    (member (Ex.after Ex.h1) 1).map (fun m => (m.server.addr, m.state)) = some (101, .suspect) ∧
    (member (Ex.after (Ex.h1 ++ [.packet 7 (.alive a) 40])) 1).map (fun m => (m.server.addr, m.incarnation, m.state)) =
      some (101, 5, .suspect) := by decide +kernel

/-! ### C53 -/

/-- An Alive claim the filter rejects changes nothing. -/
theorem C53_alive_veto {e : Ep I A} {a : Alive I A}
    (hok : env.aliveOk e.tick { id := a.node.id, addr := a.node.addr, metadata := a.metadata, state := .alive
                                pv := a.pv, dv := a.dv } = false) (src : A) (now : Nat) :
    ∃ t, (e.step cfg env (.packet src (.alive a) now)).1 = { e with tick := t } :=
  vetoed hok src now

/-- Every record of a remote node, however it was learned, describes a node the filter accepted. -/
theorem C53_accepted {e : Ep I A} (h : Reachable cfg env e) {id : I} (hid : id ≠ cfg.localId) {m : Member I A}
    (hm : member e id = some m) : ∃ t, env.aliveOk t m.server = true :=
  accepted_by_filter h hid hm

/-- A push/pull the merge filter rejects changes nothing, and its stream is closed without a response. -/
theorem C53_merge_veto {e : Ep I A} (hr : e.core.lifecycle = .running) {peer : A} {states : List (PushNodeState I A)}
    {ud : Bytes} {kind : PushPullKind} {stream : Nat} {ev : EndpointEvent I A}
    (hev : ev = .payload (.pushPullRequest peer states ud kind stream) ∨
      ev = .payload (.pushPullReply peer states ud kind stream))
    (hok : env.mergeOk e.tick (states.map (fun p => { id := p.id, addr := p.addr, metadata := p.metadata
                                                      state := p.state, pv := p.pv, dv := p.dv })) = false)
    (now : Nat) :
    ∃ t, (e.step cfg env (.streamEvent ev now)).1 = { e with tick := t } ∧
      (e.handleStreamEvent cfg env ev now).2 = some .close := by
  refine ⟨e.tick + 1, ?_⟩
  have hok' : env.mergeOk e.tick (mergeView states) = false := hok
  show (e.handleStreamEvent cfg env ev now).1 = _ ∧ _
  rcases hev with rfl | rfl
  · unfold handleStreamEvent
    dsimp only
    rw [if_neg (by simp [hr]), hok']
    exact ⟨rfl, rfl⟩
  · unfold handleStreamEvent
    dsimp only
    rw [if_neg (by simp [hr]), hok']
    exact ⟨rfl, rfl⟩

/-- Id 250 is refused; a push/pull with four states is refused; one with three is merged. -/
example : Ex.env.aliveOk 0 (Core.nodeOf { incarnation := 1, metadata := [], node := { id := 250, addr := 1 }, pv := .v1, dv := .v1 } .alive) = false ∧
    (member (Ex.after (Ex.h1 ++ [.packet 1 (Ex.alive 250 1) 40])) 250) = none ∧
    (Ex.after (Ex.h1 ++ [.streamEvent (.payload (.pushPullReply 102 [entry 3 0 .alive, entry 4 0 .alive, entry 5 0 .alive,
      entry 6 0 .alive] [] .join 1)) 40])).core.members.length = 3 ∧
    (Ex.after (Ex.h1 ++ [.streamEvent (.payload (.pushPullReply 102 [entry 3 0 .alive, entry 4 0 .alive, entry 250 0 .alive] [] .join 1))
      40])).core.members.length = 5 := by decide +kernel

/-! ### C55 -/

/-- A claim that changes the record of a remote node is queued for gossip, replacing any queued claim about
that node. -/
theorem C55_accepted_is_announced {e : Ep I A} (h : Reachable cfg env e) (hq : QueueFresh e) {id : I}
    (hid : id ≠ cfg.localId) {msg : Message I A} (hmsg : ClaimAbout id msg) (src : A) (now : Nat)
    (hne : member (e.step cfg env (.packet src msg now)).1 id ≠ member e id) :
    Announces (e.step cfg env (.packet src msg now)).1 id msg :=
  announces_of (reachable_qok h) hq (claim_queued (reachable_good h) hid hmsg src now hne)

example : QueueFresh (Ex.after Ex.h1) ∧ ClaimAbout 1 (Ex.alive 1 6) ∧
    member (Ex.after (Ex.h1 ++ [.packet 101 (Ex.alive 1 6) 40])) 1 ≠ member (Ex.after Ex.h1) 1 := by
  refine ⟨?_, .alive _ rfl, by decide +kernel⟩
  unfold QueueFresh
  decide +kernel

end Verif.Props
