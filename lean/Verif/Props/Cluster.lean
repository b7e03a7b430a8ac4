import Verif.Proof.ClusterClaims
import Verif.Example.Cluster
/-
C61-C66: what the nodes of a cluster believe about each other, whatever the network does.

Specification: `Verif.Spec.Cluster`. A history is any interleaving of starts, crashes, restarts and calls of any number
of nodes. The network may drop, repeat, delay, reorder and misdirect what it was given, but not invent membership claims.
-/
namespace Verif.Props
open Verif Spec Ep Cluster
variable {I A : Type} [DecidableEq I] [DecidableEq A]
variable {CI : DataCodec I} {CA : DataCodec A}

theorem view_some {c : Sys I A} {j i : I} {m : Member I A} (h : view c j i = some m) :
    ∃ P, c.proc j = some P ∧ P.ep.core.members.get i = some m := by
  unfold view at h
  obtain ⟨P, hp, hm⟩ := Option.bind_eq_some_iff.1 h
  rw [member_eq] at hm
  exact ⟨P, hp, hm⟩

/-- What the invariant says about a record, whoever holds it. -/
theorem record_facts (LI : LawfulData CI) (LA : LawfulData CA) {acts : List (Action I A)} (h : History CI CA acts) {j i : I}
    {m : Member I A} (hm : view (run CI CA acts) j i = some m) :
    OkRec (factsOf CI CA acts) (claim m) m.state ∧ m.server.id = i := by
  have hi := history_inv LI LA h
  obtain ⟨P, hp, hg⟩ := view_some hm
  have ok := hi.proc j P hp
  have hid : m.server.id = i := get_id hg
  refine ⟨?_, hid⟩
  by_cases hij : i = j
  · subst hij
    have hown := ok.own m (by rw [ok.id]; exact hg)
    have hst := ((reachable_good ok.reach).inv.local_get (by rw [ok.id]; exact hg)).state
    have hann : Announced CI CA acts (claim m) := hown.1
    refine ⟨⟨_, hann, rfl, rfl, rfl, rfl, Nat.le_refl _⟩, fun _ => hann, ?_, ?_, ?_⟩
    · intro hne
      split at hst
      · rename_i hl
        have := hown.2 hl
        rw [ok.id] at this
        refine .inr ?_
        show LeftAt CI CA acts m.server.id m.incarnation
        rw [hid]; exact this
      · exact absurd hst hne
    · intro hl
      split at hst
      · rename_i hl
        have := hown.2 hl
        rw [ok.id] at this
        show LeftAt CI CA acts m.server.id m.incarnation
        rw [hid]; exact this
      · rw [hl] at hst; cases hst
    · split at hst <;> rw [hst] <;> simp
  · exact ok.held.core.recs i m hg (by rw [ok.id]; exact hij)

/-- C61. Whatever a node records about a node was said by that node about itself: the address, metadata and versions
were announced together, in an incarnation not above the recorded one; and a record as alive is exactly an announcement,
with its incarnation. -/
theorem C61_records (LI : LawfulData CI) (LA : LawfulData CA) {acts : List (Action I A)} (h : History CI CA acts) {j i : I}
    {m : Member I A} (hm : view (run CI CA acts) j i = some m) :
    (∃ a, Announced CI CA acts a ∧ a.node = ⟨i, m.server.addr⟩ ∧ a.metadata = m.server.metadata ∧
      a.pv = m.server.pv ∧ a.dv = m.server.dv ∧ a.incarnation ≤ m.incarnation) ∧
    (m.state = .alive → Announced CI CA acts (claim m)) := by
  obtain ⟨hr, hid⟩ := record_facts LI LA h hm
  obtain ⟨a, h1, h2, h3⟩ := hr.base
  refine ⟨⟨a, h1, h2.trans ?_, h3⟩, hr.live⟩
  show TNode.mk m.server.id m.server.addr = _
  rw [hid]

/-- C61. The same on the network: an Alive message is an announcement of the node it is about, and so is every entry of
a push/pull that calls its node alive. -/
theorem C61_messages (LI : LawfulData CI) (LA : LawfulData CA) {acts : List (Action I A)} (h : History CI CA acts) :
    (∀ a, Heard CI CA (run CI CA acts).wire (.alive a) → Announced CI CA acts a) ∧
    (∀ pp, Heard CI CA (run CI CA acts).wire (.pushPull pp) → ∀ r ∈ pp.states, r.state = .alive →
      Announced CI CA acts { incarnation := r.incarnation, metadata := r.metadata, node := ⟨r.id, r.addr⟩
                             pv := r.pv, dv := r.dv }) := by
  have hi := history_inv LI LA h
  refine ⟨fun a ⟨b, hb, ms, hp, hm⟩ => hi.wire b hb ms hp _ hm, ?_⟩
  intro pp ⟨b, hb, ms, hp, hm⟩ r hr hst
  have := (hi.wire b hb ms hp _ hm) r hr
  exact this.live hst

theorem proc_started : ∀ acts : List (Action I A), ∀ i P, (run CI CA acts).proc i = some P → WasStarted acts i := by
  intro acts
  induction acts using snoc_induction with
  | h0 => intro i P hp; simp [Cluster.run, Cluster.empty] at hp
  | h1 l x ih =>
    intro i P hp
    have up : WasStarted l i → WasStarted (l ++ [x]) i :=
      fun ⟨cfg, env, now, h1, h2⟩ => ⟨cfg, env, now, List.mem_append_left _ h1, h2⟩
    rw [Cluster.run_snoc] at hp
    cases x with
    | start cfg env now =>
      simp only [act] at hp
      split at hp
      · exact up (ih i P hp)
      · dsimp only at hp
        split at hp
        · rename_i hid
          exact ⟨cfg, env, now, by simp, hid.symm⟩
        · exact up (ih i P hp)
    | crash k =>
      simp only [act] at hp
      split at hp
      · cases hp
      · exact up (ih i P hp)
    | call k op =>
      simp only [act] at hp
      split at hp
      · exact up (ih i P hp)
      · rename_i Q hq
        dsimp only at hp
        split at hp
        · rename_i hid
          rw [hid]
          have := ih k Q hq
          rw [hid] at up
          exact up this
        · exact up (ih i P hp)

theorem announced_started {acts : List (Action I A)} {a : Alive I A} (h : Announced CI CA acts a) :
    WasStarted acts a.node.id := by
  obtain ⟨pre, post, m, rfl, hv, rfl⟩ := h
  obtain ⟨P, h1, _⟩ := view_some hv
  obtain ⟨cfg, env, now, h2, h3⟩ := proc_started pre _ P h1
  exact ⟨cfg, env, now, List.mem_append_left _ h2, h3⟩

/-- C61. There are no ghosts: nobody records a node that was never started. -/
theorem C61_no_ghosts (LI : LawfulData CI) (LA : LawfulData CA) {acts : List (Action I A)} (h : History CI CA acts) {j i : I}
    {m : Member I A} (hm : view (run CI CA acts) j i = some m) : WasStarted acts i := by
  obtain ⟨a, h1, h2, _⟩ := (C61_records LI LA h hm).1
  have := announced_started h1
  rw [h2] at this
  exact this

example : ∃ m, view (run Ex.natCodec Ex.natCodec Ex.cSuspect) 0 1 = some m ∧ m.state = .suspect ∧
    History Ex.natCodec Ex.natCodec Ex.cSuspect :=
  ⟨(view (run Ex.natCodec Ex.natCodec Ex.cSuspect) 0 1).get (by decide +kernel), by simp, by decide +kernel,
    Ex.cSuspect_history⟩

example : Heard Ex.natCodec Ex.natCodec (run Ex.natCodec Ex.natCodec Ex.cRefute).wire (.alive (Ex.one 1)) :=
  ⟨[6, 17, 8, 1, 18, 1, 7, 26, 6, 10, 1, 1, 18, 1, 101, 32, 1, 40, 1], by decide +kernel, [.alive (Ex.one 1)],
    by decide +kernel, List.mem_singleton.2 rfl⟩

/-- C62. Nobody records a node in an incarnation that node did not reach. -/
theorem C62_reached (LI : LawfulData CI) (LA : LawfulData CA) {acts : List (Action I A)} (h : History CI CA acts) {j i : I}
    {m : Member I A} (hm : view (run CI CA acts) j i = some m) :
    ∃ a, Announced CI CA acts a ∧ a.node.id = i ∧ m.incarnation ≤ a.incarnation := by
  obtain ⟨hr, hid⟩ := record_facts LI LA h hm
  by_cases hst : m.state = .alive
  · exact ⟨_, hr.live hst, hid, Nat.le_refl _⟩
  · obtain ⟨a, h1, h2, h3⟩ := (history_inv LI LA h).sane.reach _ _ (hr.bad hst)
    exact ⟨a, h1, h2.trans hid, h3⟩

/-- C62. Of a node that was started once and whose incarnation counter did not wrap, nobody records an incarnation above
its current one. -/
theorem C62_current (LI : LawfulData CI) (LA : LawfulData CA) {acts : List (Action I A)} (h : History CI CA acts) {j i : I}
    (hr : NeverRestarts acts i) (hw : NeverWraps CI CA acts i) {m own : Member I A}
    (hm : view (run CI CA acts) j i = some m) (ho : view (run CI CA acts) i i = some own) :
    m.incarnation ≤ own.incarnation := by
  obtain ⟨a, h1, h2, h3⟩ := C62_reached LI LA h hm
  obtain ⟨P, hp, hg⟩ := view_some ho
  rcases (history_single LI LA h hr hw).top P own hp hg a h1 h2 with h4 | rfl
  · omega
  · exact h3

example : NeverRestarts Ex.cHeal 1 ∧ NeverWraps Ex.natCodec Ex.natCodec Ex.cHeal 1 ∧
    (view (run Ex.natCodec Ex.natCodec Ex.cHeal) 0 1).isSome ∧ (view (run Ex.natCodec Ex.natCodec Ex.cHeal) 1 1).isSome :=
  ⟨Ex.neverRestarts_of (by decide +kernel), Ex.neverWraps_of (by decide +kernel), by decide +kernel, by decide +kernel⟩

/-- C63. Two nodes that record a node as alive in the same incarnation agree on everything it says: address, metadata
and versions; the node was started once and its incarnation counter did not wrap. -/
theorem C63_agreement (LI : LawfulData CI) (LA : LawfulData CA) {acts : List (Action I A)} (h : History CI CA acts)
    {j j' i : I} (hr : NeverRestarts acts i) (hw : NeverWraps CI CA acts i) {m m' : Member I A}
    (hm : view (run CI CA acts) j i = some m) (hm' : view (run CI CA acts) j' i = some m')
    (ha : m.state = .alive) (ha' : m'.state = .alive) (hinc : m.incarnation = m'.incarnation) : claim m = claim m' := by
  obtain ⟨h1, e1⟩ := record_facts LI LA h hm
  obtain ⟨h2, e2⟩ := record_facts LI LA h hm'
  exact (history_single LI LA h hr hw).uniq _ _ (h1.live ha) (h2.live ha') e1 e2 hinc

/-- C63. All records of such a node have the same address, in any state and incarnation: there is no address conflict. -/
theorem C63_address (LI : LawfulData CI) (LA : LawfulData CA) {acts : List (Action I A)} (h : History CI CA acts)
    {j j' i : I} (hr : NeverRestarts acts i) (hw : NeverWraps CI CA acts i) {m m' : Member I A}
    (hm : view (run CI CA acts) j i = some m) (hm' : view (run CI CA acts) j' i = some m') :
    m.server.addr = m'.server.addr := by
  obtain ⟨a, h1, h2, _⟩ := (C61_records LI LA h hm).1
  obtain ⟨a', h1', h2', _⟩ := (C61_records LI LA h hm').1
  have := (history_single LI LA h hr hw).addr a a' h1 h1' (by rw [h2]) (by rw [h2'])
  rw [h2, h2'] at this
  exact this

example : ∃ m m', view (run Ex.natCodec Ex.natCodec Ex.cHeal) 0 1 = some m ∧ view (run Ex.natCodec Ex.natCodec Ex.cHeal) 1 1 = some m' ∧
    m.state = .alive ∧ m'.state = .alive ∧ m.incarnation = m'.incarnation ∧ History Ex.natCodec Ex.natCodec Ex.cHeal :=
  ⟨(view (run Ex.natCodec Ex.natCodec Ex.cHeal) 0 1).get (by decide +kernel),
    (view (run Ex.natCodec Ex.natCodec Ex.cHeal) 1 1).get (by decide +kernel), by simp, by simp, by decide +kernel,
    by decide +kernel, by decide +kernel, Ex.cHeal_history⟩

/-- The agreement needs that the node was started once: a node restarted with other metadata and the same incarnation is
recorded with two. -/
theorem C63_restart_witness : ∃ (acts : List (Action Nat Nat)) (m m' : Member Nat Nat),
    History Ex.natCodec Ex.natCodec acts ∧ view (run Ex.natCodec Ex.natCodec acts) 0 1 = some m ∧
    view (run Ex.natCodec Ex.natCodec acts) 1 1 = some m' ∧ m.state = .alive ∧ m'.state = .alive ∧
    m.incarnation = m'.incarnation ∧ m.server.metadata ≠ m'.server.metadata := by
  refine ⟨Ex.cJoin ++ [.start { Ex.cfg1 with initialMeta := [8] } Ex.env 7],
    (view (run Ex.natCodec Ex.natCodec (Ex.cJoin ++ [.start { Ex.cfg1 with initialMeta := [8] } Ex.env 7])) 0 1).get (by decide +kernel),
    (view (run Ex.natCodec Ex.natCodec (Ex.cJoin ++ [.start { Ex.cfg1 with initialMeta := [8] } Ex.env 7])) 1 1).get (by decide +kernel),
    Ex.history_snoc Ex.cJoin_history (Ex.possible_start (by decide) (by decide) rfl rfl), by simp, by simp,
    by decide +kernel, by decide +kernel, by decide +kernel, by decide +kernel⟩

/-- C64. A node is recorded as left, by anyone, only if it left, in that incarnation. -/
theorem C64_left (LI : LawfulData CI) (LA : LawfulData CA) {acts : List (Action I A)} (h : History CI CA acts) {j i : I}
    {m : Member I A} (hm : view (run CI CA acts) j i = some m) (hl : m.state = .left) :
    LeftAt CI CA acts i m.incarnation := by
  obtain ⟨hr, hid⟩ := record_facts LI LA h hm
  have := hr.left hl
  rw [show (claim m).node.id = i from hid] at this
  exact this

/-- C64. A node that says of itself that it is dead is known to have left. -/
theorem C64_messages (LI : LawfulData CI) (LA : LawfulData CA) {acts : List (Action I A)} (h : History CI CA acts)
    {d : BadState I} (hd : Heard CI CA (run CI CA acts).wire (.dead d)) (hs : d.node = d.src) :
    LeftAt CI CA acts d.node d.incarnation := by
  obtain ⟨b, hb, ms, hp, hm⟩ := hd
  exact ((history_inv LI LA h).wire b hb ms hp _ hm).2 hs

example : ∃ m, view (run Ex.natCodec Ex.natCodec Ex.cLeft) 0 1 = some m ∧ m.state = .left ∧
    History Ex.natCodec Ex.natCodec Ex.cLeft :=
  ⟨(view (run Ex.natCodec Ex.natCodec Ex.cLeft) 0 1).get (by decide +kernel), by simp, by decide +kernel, Ex.cLeft_history⟩

/-- C65. A node is recorded as suspect, dead or left in an incarnation, by anyone, only if it left in that incarnation,
or some node's probe of it in that incarnation was given up for lack of an answer. -/
theorem C65_accuracy (LI : LawfulData CI) (LA : LawfulData CA) {acts : List (Action I A)} (h : History CI CA acts) {j i : I}
    {m : Member I A} (hm : view (run CI CA acts) j i = some m) (hs : m.state ≠ .alive) :
    Unanswered CI CA acts i m.incarnation ∨ LeftAt CI CA acts i m.incarnation := by
  obtain ⟨hr, hid⟩ := record_facts LI LA h hm
  have := hr.bad hs
  rw [show (claim m).node.id = i from hid] at this
  exact this

/-- C65. The same on the network. -/
theorem C65_messages (LI : LawfulData CI) (LA : LawfulData CA) {acts : List (Action I A)} (h : History CI CA acts) :
    (∀ s, Heard CI CA (run CI CA acts).wire (.suspect s) →
      Unanswered CI CA acts s.node s.incarnation ∨ LeftAt CI CA acts s.node s.incarnation) ∧
    (∀ d, Heard CI CA (run CI CA acts).wire (.dead d) →
      Unanswered CI CA acts d.node d.incarnation ∨ LeftAt CI CA acts d.node d.incarnation) := by
  have hi := history_inv LI LA h
  exact ⟨fun s ⟨b, hb, ms, hp, hm⟩ => hi.wire b hb ms hp _ hm, fun d ⟨b, hb, ms, hp, hm⟩ => (hi.wire b hb ms hp _ hm).1⟩

/-- C65. A node that does not leave and answers every probe in time is recorded as alive by everyone who records it,
whatever the network loses, repeats or reorders otherwise. -/
theorem C65_healthy (LI : LawfulData CI) (LA : LawfulData CA) {acts : List (Action I A)} (h : History CI CA acts) {j i : I}
    (hu : ∀ k, ¬ Unanswered CI CA acts i k) (hl : ∀ k, ¬ LeftAt CI CA acts i k)
    {m : Member I A} (hm : view (run CI CA acts) j i = some m) : m.state = .alive ∧ Announced CI CA acts (claim m) := by
  have : m.state = .alive := by
    by_contra hne
    rcases C65_accuracy LI LA h hm hne with h1 | h1
    · exact hu _ h1
    · exact hl _ h1
  exact ⟨this, (C61_records LI LA h hm).2 this⟩

example : ∃ m, view (run Ex.natCodec Ex.natCodec Ex.cSuspect) 0 1 = some m ∧ m.state ≠ .alive :=
  ⟨(view (run Ex.natCodec Ex.natCodec Ex.cSuspect) 0 1).get (by decide +kernel), by simp, by decide +kernel⟩

/-- No probe that is waiting after the first `n` actions at node `q` satisfies `f`. -/
def noProbe (acts : List (Action Nat Nat)) (f : Probe Nat Nat → Bool) (q n : Nat) : Bool :=
  match (run Ex.natCodec Ex.natCodec (acts.take n)).proc q with
  | some P => P.ep.net.probes.all (fun e => !f e.2)
  | none => true

theorem not_unanswered {acts : List (Action Nat Nat)} {i k : Nat} (f : Probe Nat Nat → Bool)
    (hf : ∀ p, p.targetIncarnation = k → f p = true)
    (hs : ∀ a ∈ acts, ∀ q, Ex.starts q a = true → q = 0 ∨ q = 1)
    (h0 : (List.range acts.length).all (noProbe acts f 0) = true)
    (h1 : (List.range acts.length).all (noProbe acts f 1) = true) : ¬ Unanswered Ex.natCodec Ex.natCodec acts i k := by
  rintro ⟨pre, q, op, post, P, seq, p, rfl, -, hp, hpend, -, -, hk, -⟩
  have hq : q = 0 ∨ q = 1 := by
    obtain ⟨cfg, env, now, h2, h3⟩ := proc_started pre q P hp
    exact hs _ (List.mem_append_left _ h2) q (by simp [Ex.starts, h3])
  have hn : noProbe (pre ++ .call q op :: post) f q pre.length = true := by
    have hm : pre.length ∈ List.range (pre ++ Action.call q op :: post).length := by simp
    rcases hq with rfl | rfl
    · exact List.all_eq_true.1 h0 _ hm
    · exact List.all_eq_true.1 h1 _ hm
  unfold noProbe at hn
  rw [List.take_left, hp] at hn
  have := List.all_eq_true.1 hn _ (Map.mem_of_get? hpend)
  simp [hf p hk] at this

/-- The action is a call of `leave`. -/
def isLeave : Action Nat Nat → Bool
  | .call _ (.leave _ _) => true
  | _ => false

theorem not_leftAt {acts : List (Action Nat Nat)} {i k : Nat} (h : acts.all (fun a => !isLeave a) = true) :
    ¬ LeftAt Ex.natCodec Ex.natCodec acts i k := by
  rintro ⟨pre, now, f, post, P, m, rfl, -⟩
  have := List.all_eq_true.1 h (.call i (.leave now f)) (by simp)
  simp [isLeave] at this

theorem only_two {acts : List (Action Nat Nat)}
    (h : acts.all (fun a => match a with | .start c _ _ => c.localId == 0 || c.localId == 1 | _ => true) = true) :
    ∀ a ∈ acts, ∀ q, Ex.starts q a = true → q = 0 ∨ q = 1 := by
  intro a ha q hq
  have := List.all_eq_true.1 h a ha
  cases a with
  | start c e n =>
    simp [Ex.starts] at hq
    subst hq
    simpa using this
  | crash i => simp [Ex.starts] at hq
  | call i op => simp [Ex.starts] at hq

example : (∀ k, ¬ Unanswered Ex.natCodec Ex.natCodec Ex.cJoin 1 k) ∧ (∀ k, ¬ LeftAt Ex.natCodec Ex.natCodec Ex.cJoin 1 k) ∧
    (view (run Ex.natCodec Ex.natCodec Ex.cJoin) 0 1).isSome :=
  ⟨fun _ => not_unanswered (fun _ => true) (fun _ _ => rfl) (only_two (by decide)) (by decide +kernel) (by decide +kernel),
    fun _ => not_leftAt (by decide), by decide +kernel⟩

/-- C66. Delivery converges: if nobody's probe of `i` in its current incarnation was given up and `i` did not leave in
it, then a node that receives what `i` currently says of itself records exactly that, provided it runs, its filter
accepts the claim, and it knows `i` or has room for it. -/
theorem C66_delivery (LI : LawfulData CI) (LA : LawfulData CA) {acts : List (Action I A)} {i j : I} {own : Member I A}
    {src : A} {now : Nat} (h : History CI CA (acts ++ [.call j (.packet src (.alive (claim own)) now)]))
    (hr : NeverRestarts acts i) (hw : NeverWraps CI CA acts i) (ho : view (run CI CA acts) i i = some own) (hne : i ≠ j)
    {P : Proc I A} (hP : (run CI CA acts).proc j = some P) (hrun : P.ep.core.lifecycle = .running)
    (hok : P.env.aliveOk P.ep.tick ⟨i, own.server.addr, own.server.metadata, .alive, own.server.pv, own.server.dv⟩ = true)
    (hroom : view (run CI CA acts) j i = none → ∀ mx, P.cfg.maxMembers = some mx → P.ep.core.members.length < mx)
    (hu : ¬ Unanswered CI CA acts i own.incarnation) (hl : ¬ LeftAt CI CA acts i own.incarnation) :
    ∃ m, view (run CI CA (acts ++ [.call j (.packet src (.alive (claim own)) now)])) j i = some m ∧ m.state = .alive ∧
      claim m = claim own := by
  have h0 : History CI CA acts := fun pre x post he => h pre x (post ++ [_]) (by rw [he, List.append_assoc]; rfl)
  have hi := history_inv LI LA h0
  have ok := hi.proc j P hP
  have hg := reachable_good ok.reach
  have hs := history_single LI LA h0 hr hw
  obtain ⟨_, hid⟩ := record_facts LI LA h0 ho
  have hcid : (claim own).node.id = i := hid
  have hok' : P.env.aliveOk P.ep.tick (Core.nodeOf (claim own) .alive) = true := by
    rw [← hok, ← hid]; rfl
  have hview : ∀ id, view (run CI CA (acts ++ [.call j (.packet src (.alive (claim own)) now)])) j id =
      member (P.ep.step P.cfg P.env (.packet src (.alive (claim own)) now)).1 id := by
    intro id
    unfold view
    rw [Cluster.run_snoc]
    simp only [act, hP, if_true, Option.bind_some]
  have hv0 : view (run CI CA acts) j i = member P.ep i := by unfold view; rw [hP]; rfl
  cases hmj : view (run CI CA acts) j i with
  | none =>
    rw [hv0] at hmj
    obtain ⟨m, h1, h2, h3, h4⟩ := adopt_new hg (a := claim own) (by rw [hcid]; exact hmj) hrun
      (hroom (by rw [hv0]; exact hmj)) hok' src now
    rw [hcid] at h1
    refine ⟨m, by rw [hview]; exact h1, h2, ?_⟩
    unfold claim
    rw [h3, h4]; rfl
  | some mj =>
    have hle := C62_current LI LA h0 hr hw hmj ho
    have haddr := C63_address LI LA h0 hr hw hmj ho
    have hrec := (record_facts LI LA h0 hmj).1
    have hmid := (record_facts LI LA h0 hmj).2
    have hmem : member P.ep i = some mj := by rw [← hv0]; exact hmj
    rcases Nat.lt_or_eq_of_le hle with hlt | heq
    · have h1 := adopt_newer hg (a := claim own) (by rw [hcid]; exact hmem) hrun (by rw [hcid, ok.id]; exact hne) haddr hlt
        hok' src now
      rw [hcid] at h1
      obtain ⟨h2, h3⟩ := adoptAlive_facts (claim own) none now { mj with susp := none }
      exact ⟨_, by rw [hview]; exact h1, h3, h2⟩
    · have hst : mj.state = .alive := by
        by_contra hne'
        rcases C65_accuracy LI LA h0 hmj hne' with h1 | h1
        · rw [heq] at h1; exact hu h1
        · rw [heq] at h1; exact hl h1
      refine ⟨mj, ?_, hst, ?_⟩
      · rw [hview, packet_alive hrun, member_eq]
        have hch := Core.act_change (env := P.env) hg (.alive (claim own) (P.env.aliveOk P.ep.tick (Core.nodeOf (claim own) .alive))
          (P.env.tape P.ep.tick 0) now) i
        have hact : Core.act P.cfg P.env P.ep.core (.alive (claim own) (P.env.aliveOk P.ep.tick (Core.nodeOf (claim own) .alive))
          (P.env.tape P.ep.tick 0) now) = P.ep.core.processAlive P.cfg P.env (claim own)
            (P.env.aliveOk P.ep.tick (Core.nodeOf (claim own) .alive)) (P.env.tape P.ep.tick 0) now := rfl
        rw [member_eq] at hmem
        rw [hact, hmem] at hch
        show (P.ep.core.processAlive _ _ _ _ _ _).members.get i = some mj
        generalize (P.ep.core.processAlive P.cfg P.env (claim own)
            (P.env.aliveOk P.ep.tick (Core.nodeOf (claim own) .alive)) (P.env.tape P.ep.tick 0) now).members.get i = o at hch
        cases hch with
        | same => rfl
        | refuted _ _ _ e => exact absurd (e.trans ok.id) hne
        | newer _ _ _ _ _ _ _ _ _ _ h => exact absurd h (by rw [heq]; exact Nat.lt_irrefl _)
        | reclaimed _ _ _ _ _ _ _ _ _ h => exact absurd haddr h
      · exact hs.uniq _ _ (hrec.live hst) (announced_now (view_some ho).choose_spec.1 (view_some ho).choose_spec.2) hmid hid heq

/-- In the example node 0 suspects node 1 until it receives what node 1 says of itself. -/
example : (view (run Ex.natCodec Ex.natCodec Ex.cRefute) 0 1).map (·.state) = some .suspect ∧
    ∃ m, view (run Ex.natCodec Ex.natCodec Ex.cHeal) 0 1 = some m ∧ m.state = .alive ∧ claim m = Ex.one 1 := by
  refine ⟨by decide +kernel, ?_⟩
  have ho : view (run Ex.natCodec Ex.natCodec Ex.cRefute) 1 1 =
      some ((view (run Ex.natCodec Ex.natCodec Ex.cRefute) 1 1).get (by decide +kernel)) := by simp
  have hc : claim ((view (run Ex.natCodec Ex.natCodec Ex.cRefute) 1 1).get (by decide +kernel)) = Ex.one 1 := by decide +kernel
  have hinc : ((view (run Ex.natCodec Ex.natCodec Ex.cRefute) 1 1).get (by decide +kernel)).incarnation = 1 := by
    decide +kernel
  have hP : (run Ex.natCodec Ex.natCodec Ex.cRefute).proc 0 =
      some (((run Ex.natCodec Ex.natCodec Ex.cRefute).proc 0).get (by decide +kernel)) := by simp
  have := C66_delivery Ex.natCodec_lawful Ex.natCodec_lawful (acts := Ex.cRefute) (i := 1) (j := 0) (src := 101)
    (now := 2002 * MS) (by rw [hc]; exact Ex.cHeal_history) (Ex.neverRestarts_of (by decide +kernel))
    (Ex.neverWraps_of (by decide +kernel)) ho (by decide) hP (by decide +kernel) (by decide +kernel)
    (fun hn => absurd hn (by decide +kernel))
    (by rw [hinc]; exact not_unanswered (fun p => p.targetIncarnation == 1) (fun p h => by simp [h]) (only_two (by decide +kernel))
          (by decide +kernel) (by decide +kernel))
    (not_leftAt (by decide +kernel))
  rw [hc] at this
  exact this

end Verif.Props
