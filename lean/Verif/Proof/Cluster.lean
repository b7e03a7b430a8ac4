import Verif.Proof.ClusterStep
import Verif.Proof.BroadcastRun
import Verif.Props.Blame
/-
Clusters: what every node believes and what is on the network, in every possible history.
-/
namespace Verif.Cluster
open Verif Core Ep Spec
variable {I A : Type} [DecidableEq I] [DecidableEq A]
variable {CI : DataCodec I} {CA : DataCodec A}

/-- What happened in a history. -/
def factsOf (CI : DataCodec I) (CA : DataCodec A) (acts : List (Action I A)) : Facts I A :=
  ⟨Announced CI CA acts, Unanswered CI CA acts, LeftAt CI CA acts⟩

theorem run_snoc (acts : List (Action I A)) (a : Action I A) :
    run CI CA (acts ++ [a]) = act CI CA (run CI CA acts) a := by
  simp [run, List.foldl_append]

theorem Announced.mono {acts : List (Action I A)} {a : Alive I A} (h : Announced CI CA acts a) (post : List (Action I A)) :
    Announced CI CA (acts ++ post) a := by
  obtain ⟨pre, post', m, rfl, h⟩ := h
  exact ⟨pre, post' ++ post, m, by rw [List.append_assoc], h⟩

theorem Unanswered.mono {acts : List (Action I A)} {i : I} {k : Nat} (h : Unanswered CI CA acts i k)
    (post : List (Action I A)) : Unanswered CI CA (acts ++ post) i k := by
  obtain ⟨pre, q, op, post', P, seq, p, rfl, h⟩ := h
  exact ⟨pre, q, op, post' ++ post, P, seq, p, by simp, h⟩

theorem LeftAt.mono {acts : List (Action I A)} {i : I} {k : Nat} (h : LeftAt CI CA acts i k) (post : List (Action I A)) :
    LeftAt CI CA (acts ++ post) i k := by
  obtain ⟨pre, now, f, post', P, m, rfl, h⟩ := h
  exact ⟨pre, now, f, post' ++ post, P, m, by simp, h⟩

theorem facts_mono (acts post : List (Action I A)) : (factsOf CI CA acts).Le (factsOf CI CA (acts ++ post)) :=
  ⟨fun _ h => Announced.mono h post, fun _ _ h => Unanswered.mono h post, fun _ _ h => LeftAt.mono h post⟩

/-- A running node of a possible history. -/
structure ProcOk (CI : DataCodec I) (CA : DataCodec A) (K : Facts I A) (j : I) (P : Proc I A) : Prop where
  id : P.cfg.localId = j
  ci : P.env.CI = CI
  ca : P.env.CA = CA
  ver : CanonVersion P.cfg.pv ∧ CanonVersion P.cfg.dv
  reach : Reachable P.cfg P.env P.ep
  held : Held K P.cfg P.env P.ep
  own : OwnOk K P.cfg P.ep.core
  wf : OwnWF P.cfg P.ep.core

theorem ProcOk.mono {K K' : Facts I A} (h : K.Le K') {j : I} {P : Proc I A} (hp : ProcOk CI CA K j P) :
    ProcOk CI CA K' j P :=
  { hp with held := hp.held.mono h, own := hp.own.mono h }

/-- The invariant of possible histories. -/
structure Inv (CI : DataCodec I) (CA : DataCodec A) (acts : List (Action I A)) : Prop where
  proc : ∀ j P, (run CI CA acts).proc j = some P → ProcOk CI CA (factsOf CI CA acts) j P
  wire : ∀ b ∈ (run CI CA acts).wire, BytesOk (factsOf CI CA acts) CI CA b
  sane : (factsOf CI CA acts).Sane

/-- Splitting a history with one more action. -/
theorem split_snoc {α : Type} {acts : List α} {a : α} {pre post : List α} (h : acts ++ [a] = pre ++ post) :
    (∃ post', acts = pre ++ post') ∨ pre = acts ++ [a] ∧ post = [] := by
  rcases List.eq_nil_or_concat post with rfl | ⟨l, b, rfl⟩
  · rw [List.append_nil] at h; exact .inr ⟨h.symm, rfl⟩
  · rw [List.concat_eq_append, ← List.append_assoc] at h
    exact .inl ⟨l, (List.append_inj' h rfl).1⟩

theorem split_snoc_cons {α : Type} {acts : List α} {a b : α} {pre post : List α} (h : acts ++ [a] = pre ++ b :: post) :
    (∃ post', acts = pre ++ b :: post') ∨ pre = acts ∧ b = a := by
  rcases List.eq_nil_or_concat post with rfl | ⟨l, c, rfl⟩
  · have := List.append_inj' h rfl
    exact .inr ⟨this.1.symm, (List.cons.inj this.2).1.symm⟩
  · rw [List.concat_eq_append, ← List.cons_append, ← List.append_assoc] at h
    exact .inl ⟨l, (List.append_inj' h rfl).1⟩

/-- Own claims of running nodes are announced. -/
theorem announced_now {acts : List (Action I A)} {j : I} {P : Proc I A} {m : Member I A}
    (hp : (run CI CA acts).proc j = some P) (hm : P.ep.core.members.get j = some m) :
    Announced CI CA acts (aliveOf m.server m.incarnation) := by
  have hid : m.server.id = j := get_id hm
  refine ⟨acts, [], m, (List.append_nil _).symm, ?_, rfl⟩
  show view _ m.server.id m.server.id = _
  unfold view
  rw [hid, hp]
  show member P.ep j = some m
  rw [member_eq]; exact hm

theorem sane_snoc {acts : List (Action I A)} (h : Inv CI CA acts) (a : Action I A)
    (hw : ∀ j P, (run CI CA (acts ++ [a])).proc j = some P → P.cfg.localId = j ∧ OwnWF P.cfg P.ep.core) :
    (factsOf CI CA (acts ++ [a])).Sane := by
  refine ⟨?_, ?_⟩
  · rintro x ⟨pre, post, m, he, hv, rfl⟩
    rcases split_snoc he with ⟨post', rfl⟩ | ⟨rfl, rfl⟩
    · exact h.sane.wf _ ⟨pre, post', m, rfl, hv, rfl⟩
    · unfold view at hv
      obtain ⟨P, hp, hm⟩ := Option.bind_eq_some_iff.1 hv
      obtain ⟨h1, h2⟩ := hw _ P hp
      rw [member_eq] at hm
      exact h2 m (by rw [h1]; exact hm)
  · have up : ∀ {i k}, (∃ a, (factsOf CI CA acts).ann a ∧ a.node.id = i ∧ k ≤ a.incarnation) →
        ∃ x, (factsOf CI CA (acts ++ [a])).ann x ∧ x.node.id = i ∧ k ≤ x.incarnation :=
      fun ⟨x, h1, h2⟩ => ⟨x, (facts_mono acts [a]).ann x h1, h2⟩
    rintro i k (hu | hl)
    · obtain ⟨pre, q, op, post, P, seq, p, he, hq, hp, hpe, hk, hi, hinc, hr⟩ := hu
      rcases split_snoc_cons he with ⟨post', rfl⟩ | ⟨rfl, rfl⟩
      · exact up (h.sane.reach i k (.inl ⟨pre, q, op, post', P, seq, p, rfl, hq, hp, hpe, hk, hi, hinc, hr⟩))
      · have := ((h.proc q P hp).held.probes seq p hpe hk).2
        rw [hi, hinc] at this
        exact up this
    · obtain ⟨pre, now, f, post, P, m, he, hp, hr, hm, hinc⟩ := hl
      rcases split_snoc_cons he with ⟨post', rfl⟩ | ⟨rfl, rfl⟩
      · exact up (h.sane.reach i k (.inr ⟨pre, now, f, post', P, m, rfl, hp, hr, hm, hinc⟩))
      · rw [member_eq] at hm
        refine up ⟨_, announced_now hp hm, get_id hm, ?_⟩
        show k ≤ m.incarnation
        omega

theorem init_own {cfg : Cfg I A} {env : Env I A} {now : Nat} {id : I} {m : Member I A}
    (h : (Core.init cfg env now).members.get id = some m) :
    id = cfg.localId ∧ m = { server := { id := cfg.localId, addr := cfg.advertise, metadata := cfg.initialMeta
                                         state := .alive, pv := cfg.pv, dv := cfg.dv }
                             incarnation := cfg.initialIncarnation, stateChange := now, state := .alive
                             susp := none, gen := 1 } := by
  have h1 := get_id h
  have h2 := Table.get_mem h
  have h3 := List.mem_singleton.1 h2
  subst h3
  exact ⟨h1.symm, rfl⟩

theorem start_held {K : Facts I A} {cfg : Cfg I A} {env : Env I A} {now : Nat} {e : Ep I A}
    (h : tryNew cfg env now = .ok e) (hk : ∀ m, e.core.members.get cfg.localId = some m →
      K.ann (aliveOf m.server m.incarnation)) :
    Held K cfg env e ∧ OwnOk K cfg e.core := by
  have hg := reachable_good (reachable_new h)
  have hcore := tryNew_core h
  have hown : OwnOk K cfg e.core := fun m hm => ⟨hk m hm, fun hl => by rw [hcore] at hl; cases hl⟩
  have hq : e.core.bcast.All (fun _ b => b = (cfg.localId, .alive (aliveOf
      { id := cfg.localId, addr := cfg.advertise, metadata := cfg.initialMeta, state := .alive
        pv := cfg.pv, dv := cfg.dv } cfg.initialIncarnation))) := by
    rw [hcore]
    have h0 : (BQueue.new cfg.retransmitMult : BQueue I (I × Message I A)).All (fun _ b => b = (cfg.localId, .alive (aliveOf
        { id := cfg.localId, addr := cfg.advertise, metadata := cfg.initialMeta, state := .alive
          pv := cfg.pv, dv := cfg.dv } cfg.initialIncarnation))) := by
      intro x hx; cases hx
    exact BQueue.All.queueBroadcast (ops := Core.ops env) h0 _ rfl
  have hc : CoreOk K cfg e.core := by
    refine ⟨?_, ?_⟩
    · intro id m hm hid
      rw [hcore] at hm
      exact absurd (init_own hm).1 hid
    · intro x hx hne
      rw [hq x hx] at hne
      exact absurd rfl hne
  have heq := tryNew_eq h
  refine ⟨⟨hc, ?_, reachable_qok (reachable_new h), ?_, ?_, ?_, ?_⟩, hown⟩
  · intro _ own ho x hx _
    rw [hq x hx]
    rw [hcore] at ho
    left
    rw [(init_own ho).2]
  · rw [heq]; unfold refreshCache; split <;> nofun
  · rw [heq]
    unfold refreshCache
    split
    · nofun
    · have := table_ok hg hc hown
      rw [hcore] at this
      exact this
  · rw [heq]; unfold refreshCache; split <;> nofun
  · rw [heq]; unfold refreshCache; split <;> nofun

/-- One call of a running node of a possible history. -/
theorem call_step (LI : LawfulData CI) (LA : LawfulData CA) {acts : List (Action I A)} (h : Inv CI CA acts) {i : I}
    {op : Op I A} (ha : Possible CI CA (run CI CA acts) (.call i op)) {P : Proc I A}
    (hpi : (run CI CA acts).proc i = some P) :
    OwnWF P.cfg (P.ep.step P.cfg P.env op).1.core ∧ (factsOf CI CA (acts ++ [.call i op])).Sane ∧
    Held (factsOf CI CA (acts ++ [.call i op])) P.cfg P.env (P.ep.step P.cfg P.env op).1 ∧
    (∀ b ∈ emits CI CA (P.ep.step P.cfg P.env op).2, BytesOk (factsOf CI CA (acts ++ [.call i op])) CI CA b) ∧
    ((P.ep.step P.cfg P.env op).1.core.lifecycle = .left →
      ∀ m, (P.ep.step P.cfg P.env op).1.core.members.get P.cfg.localId = some m →
        LeftAt CI CA (acts ++ [.call i op]) P.cfg.localId m.incarnation) ∧
    Acts P.cfg P.env (Allowed (factsOf CI CA (acts ++ [.call i op])) P.cfg op) P.ep.core
      (P.ep.step P.cfg P.env op).1.core := by
  have hle := facts_mono (CI := CI) (CA := CA) acts [.call i op]
  have hrun := run_snoc (CI := CI) (CA := CA) acts (.call i op)
  simp only [act] at hrun
  obtain ⟨h1, h2, h3, h4⟩ := ha
  have ok := h.proc i P hpi
  rw [hpi] at hrun
  dsimp only at hrun
  have hwf := step_ownWF ok.reach ok.ver h3 ok.wf
  have hsane : (factsOf CI CA (acts ++ [.call i op])).Sane := by
    refine sane_snoc h _ (fun j Q hp => ?_)
    rw [hrun] at hp
    dsimp only at hp
    split at hp
    · rename_i hj
      cases hp
      exact ⟨ok.id.trans hj.symm, hwf⟩
    · exact ⟨(h.proc j Q hp).id, (h.proc j Q hp).wf⟩
  -- what is known when the call returns, but for the probes it gave up
  let K : Facts I A := { factsOf CI CA (acts ++ [.call i op]) with failed := Unanswered CI CA acts }
  have hKle : (factsOf CI CA acts).Le K := ⟨hle.ann, fun _ _ h => h, hle.gone⟩
  have hKle2 : K.Le (factsOf CI CA (acts ++ [.call i op])) := ⟨fun _ h => h, hle.failed, fun _ _ h => h⟩
  have hK : K.Sane := ⟨hsane.wf, fun j k hj => hsane.reach j k (hKle2.accused hj)⟩
  have hin : InputOk K P.cfg op := by
    refine ⟨?_, ?_⟩
    · intro src m now ho
      by_cases hm : AboutMembers m
      · obtain ⟨b, hb, ms, hp, hmem⟩ := h1 src m now ho hm
        exact (h.wire b hb ms hp m hmem).mono hKle
      · exact .of_not hm
    · intro r hr
      obtain ⟨pp, ⟨b, hb, ms, hp, hmem⟩, hst⟩ := h2 (List.ne_nil_of_mem hr)
      have := h.wire b hb ms hp _ hmem
      exact (this r (by rw [hst]; exact hr)).mono hKle
  have hnew : (act CI CA (run CI CA acts) (.call i op)).proc i =
      some { P with ep := (P.ep.step P.cfg P.env op).1 } := by
    simp only [act, hpi, if_true]
  have hcalls := h4 _ hnew
  obtain ⟨g1, g2, g3, g4⟩ := node_step hK (ok.ci ▸ LI) (ok.ca ▸ LA) ok.reach (ok.held.mono hKle) (ok.own.mono hKle) hin
    (fun ⟨now, f, ho⟩ hr m hm => ⟨acts, now, f, [], P, m, by rw [ho, ok.id], by rw [ok.id]; exact hpi, hr, by
      rw [member_eq]; exact hm, rfl⟩) hcalls
  rw [ok.ci, ok.ca] at g2
  have hplus : (K.plus P.cfg P.ep op (stepEnds P.cfg P.env P.ep op)).Le (factsOf CI CA (acts ++ [.call i op])) := by
    refine ⟨fun _ h => h, ?_, fun _ _ h => h⟩
    rintro j k (hf | ⟨s, p, now, f1, f2, f3, f4, f5, f6⟩)
    · exact hle.failed j k hf
    · refine ⟨acts, i, op, [], P, s, p, rfl, ?_, hpi, f1, f2, f5, f6, Props.failWhy_runsOut f3, ?_⟩
      · have := (ok.held.probes s p f1 f2).1
        rw [f5, ok.id] at this
        exact fun e => this e.symm
      · intro p' hp'
        obtain ⟨d, hd⟩ := step_gone ok.reach op f4 hp'
        unfold relaysOf; rw [hd]
  exact ⟨hwf, hsane, g1.mono hplus, fun b hb => (g2 b hb).mono hKle2, g3,
    g4.mono (fun x hx => ⟨hx.1.mono hplus, hx.2⟩)⟩

theorem inv_empty : Inv CI CA ([] : List (Action I A)) := by
  refine ⟨nofun, nofun, ?_, ?_⟩
  · rintro a ⟨pre, post, m, he, hv, _⟩
    obtain ⟨rfl, rfl⟩ := List.append_eq_nil_iff.1 he.symm
    cases hv
  · rintro i k (⟨pre, q, op, post, P, seq, p, he, _⟩ | ⟨pre, now, f, post, P, m, he, _⟩)
    · simp at he
    · simp at he

theorem inv_snoc (LI : LawfulData CI) (LA : LawfulData CA) {acts : List (Action I A)} (h : Inv CI CA acts)
    {a : Action I A} (ha : Possible CI CA (run CI CA acts) a) : Inv CI CA (acts ++ [a]) := by
  have hle := facts_mono (CI := CI) (CA := CA) acts [a]
  cases a with
  | start cfg env now =>
    have hrun := run_snoc (CI := CI) (CA := CA) acts (.start cfg env now)
    simp only [act] at hrun
    obtain ⟨h1, h2, h3, h4, h5, h6⟩ := ha
    cases hn : tryNew cfg env now with
    | error x =>
      rw [hn] at hrun
      refine ⟨fun j P hp => ?_, ?_, ?_⟩
      · rw [hrun] at hp; exact (h.proc j P hp).mono hle
      · rw [hrun]; exact fun b hb => (h.wire b hb).mono hle
      · refine sane_snoc h _ (fun j P hp => ?_)
        rw [hrun] at hp
        exact ⟨(h.proc j P hp).id, (h.proc j P hp).wf⟩
    | ok e =>
      rw [hn] at hrun
      dsimp only at hrun
      have hwf : OwnWF cfg e.core := by
        rw [tryNew_core hn]
        intro m hm
        rw [(init_own hm).2]
        exact ⟨h3, h4, h5, h6⟩
      refine ⟨fun j P hp => ?_, ?_, ?_⟩
      · have hp0 := hp
        rw [hrun] at hp
        dsimp only at hp
        split at hp
        · rename_i hj
          subst hj
          cases hp
          have := start_held (K := factsOf CI CA (acts ++ [.start cfg env now])) hn
            (fun m hm => announced_now hp0 hm)
          exact ⟨rfl, h1, h2, ⟨h5, h6⟩, reachable_new hn, this.1, this.2, hwf⟩
        · exact (h.proc j P hp).mono hle
      · rw [hrun]; exact fun b hb => (h.wire b hb).mono hle
      · refine sane_snoc h _ (fun j P hp => ?_)
        rw [hrun] at hp
        dsimp only at hp
        split at hp
        · rename_i hj
          cases hp
          exact ⟨hj.symm, hwf⟩
        · exact ⟨(h.proc j P hp).id, (h.proc j P hp).wf⟩
  | crash i =>
    have hrun := run_snoc (CI := CI) (CA := CA) acts (.crash i)
    simp only [act] at hrun
    have old : ∀ j P, (run CI CA (acts ++ [.crash i])).proc j = some P → (run CI CA acts).proc j = some P := by
      intro j P hp
      rw [hrun] at hp
      dsimp only at hp
      split at hp
      · cases hp
      · exact hp
    refine ⟨fun j P hp => (h.proc j P (old j P hp)).mono hle, ?_, ?_⟩
    · rw [hrun]; exact fun b hb => (h.wire b hb).mono hle
    · exact sane_snoc h _ (fun j P hp => ⟨(h.proc j P (old j P hp)).id, (h.proc j P (old j P hp)).wf⟩)
  | call i op =>
    have hrun := run_snoc (CI := CI) (CA := CA) acts (.call i op)
    simp only [act] at hrun
    cases hpi : (run CI CA acts).proc i with
    | none =>
      rw [hpi] at hrun
      refine ⟨fun j P hp => ?_, ?_, ?_⟩
      · rw [hrun] at hp; exact (h.proc j P hp).mono hle
      · rw [hrun]; exact fun b hb => (h.wire b hb).mono hle
      · refine sane_snoc h _ (fun j P hp => ?_)
        rw [hrun] at hp
        exact ⟨(h.proc j P hp).id, (h.proc j P hp).wf⟩
    | some P =>
      have ok := h.proc i P hpi
      obtain ⟨hwf, hsane, g1, g2, g3, _⟩ := call_step LI LA h ha hpi
      rw [hpi] at hrun
      dsimp only at hrun
      refine ⟨fun j Q hp => ?_, ?_, hsane⟩
      · have hp0 := hp
        rw [hrun] at hp
        dsimp only at hp
        split at hp
        · rename_i hj
          cases hp
          subst hj
          refine ⟨ok.id, ok.ci, ok.ca, ok.ver, reachable_step ok.reach op, g1, ?_, hwf⟩
          intro m hm
          refine ⟨announced_now hp0 (by rw [← ok.id]; exact hm), fun hl => g3 hl m hm⟩
        · exact (h.proc j Q hp).mono hle
      · rw [hrun]
        intro b hb
        rcases List.mem_append.1 hb with hb | hb
        · exact (h.wire b hb).mono hle
        · exact g2 b hb

/-- Every possible history satisfies the invariant. -/
theorem history_inv (LI : LawfulData CI) (LA : LawfulData CA) {acts : List (Action I A)} (h : History CI CA acts) :
    Inv CI CA acts := by
  induction acts using snoc_induction with
  | h0 => exact inv_empty
  | h1 l a ih =>
    refine inv_snoc LI LA (ih (fun pre x post he => h pre x (post ++ [a]) (by rw [he]; simp))) ?_
    exact h l a [] rfl

end Verif.Cluster
