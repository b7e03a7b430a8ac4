import Verif.Proof.Cluster
/-
A node that is started once and whose incarnation counter does not wrap never says two things in one incarnation.
-/
namespace Verif.Cluster
open Verif Core Ep Spec
variable {I A : Type} [DecidableEq I] [DecidableEq A]
variable {CI : DataCodec I} {CA : DataCodec A}

theorem announced_snoc {acts : List (Action I A)} {x : Action I A} {a : Alive I A}
    (h : Announced CI CA (acts ++ [x]) a) : Announced CI CA acts a ∨
      ∃ P m, (run CI CA (acts ++ [x])).proc a.node.id = some P ∧ P.ep.core.members.get a.node.id = some m ∧
        aliveOf m.server m.incarnation = a := by
  obtain ⟨pre, post, m, he, hv, hc⟩ := h
  rcases split_snoc he with ⟨post', rfl⟩ | ⟨rfl, rfl⟩
  · exact .inl ⟨pre, post', m, rfl, hv, hc⟩
  · unfold view at hv
    obtain ⟨P, hp, hm⟩ := Option.bind_eq_some_iff.1 hv
    rw [member_eq] at hm
    exact .inr ⟨P, m, hp, hm, hc⟩

/-- Node `i` was started in the history. -/
def Started (acts : List (Action I A)) (i : I) : Prop :=
  ∃ pre cfg env now post, acts = pre ++ .start cfg env now :: post ∧ cfg.localId = i

/-- What node `i` said of itself in a history. -/
structure Single (CI : DataCodec I) (CA : DataCodec A) (acts : List (Action I A)) (i : I) : Prop where
  started : ∀ a, Announced CI CA acts a → a.node.id = i → Started acts i
  running : ∀ P, (run CI CA acts).proc i = some P → Started acts i
  uniq : ∀ a a', Announced CI CA acts a → Announced CI CA acts a' → a.node.id = i → a'.node.id = i →
    a.incarnation = a'.incarnation → a = a'
  addr : ∀ a a', Announced CI CA acts a → Announced CI CA acts a' → a.node.id = i → a'.node.id = i →
    a.node.addr = a'.node.addr
  top : ∀ P m, (run CI CA acts).proc i = some P → P.ep.core.members.get i = some m →
    ∀ a, Announced CI CA acts a → a.node.id = i →
      a.incarnation < m.incarnation ∨ a = aliveOf m.server m.incarnation

omit [DecidableEq I] [DecidableEq A] in
theorem Started.mono {acts : List (Action I A)} {i : I} (h : Started acts i) (post : List (Action I A)) :
    Started (acts ++ post) i := by
  obtain ⟨pre, cfg, env, now, post', rfl, h⟩ := h
  exact ⟨pre, cfg, env, now, post' ++ post, by simp, h⟩

/-- An action that does not concern `i`, or stops it. -/
theorem Single.quiet {acts : List (Action I A)} {i : I} (h : Single CI CA acts i) {x : Action I A}
    (hx : ∀ P, (run CI CA (acts ++ [x])).proc i = some P → (run CI CA acts).proc i = some P) :
    Single CI CA (acts ++ [x]) i := by
  have old : ∀ a, Announced CI CA (acts ++ [x]) a → a.node.id = i → Announced CI CA acts a := by
    intro a ha hi
    rcases announced_snoc ha with h1 | ⟨P, m, h1, h2, rfl⟩
    · exact h1
    · rw [hi] at h1 h2
      exact announced_now (hx P h1) h2
  exact {
    started := fun a ha hi => (h.started a (old a ha hi) hi).mono [x]
    running := fun P hp => (h.running P (hx P hp)).mono [x]
    uniq := fun a a' ha ha' hi hi' => h.uniq a a' (old a ha hi) (old a' ha' hi') hi hi'
    addr := fun a a' ha ha' hi hi' => h.addr a a' (old a ha hi) (old a' ha' hi') hi hi'
    top := fun P m hp hm a ha hi => h.top P m (hx P hp) hm a (old a ha hi) hi }

theorem single_empty (i : I) : Single CI CA ([] : List (Action I A)) i := by
  have no : ∀ a : Alive I A, ¬ Announced CI CA [] a := by
    rintro a ⟨pre, post, m, he, hv, _⟩
    obtain ⟨rfl, rfl⟩ := List.append_eq_nil_iff.1 he.symm
    cases hv
  have np : ∀ P, (run CI CA ([] : List (Action I A))).proc i ≠ some P := by
    intro P hp
    simp [run, empty] at hp
  exact ⟨fun a ha => absurd ha (no a), fun P hp => absurd hp (np P), fun a _ ha => absurd ha (no a),
    fun a _ ha => absurd ha (no a), fun P _ hp => absurd hp (np P)⟩

theorem single_snoc (LI : LawfulData CI) (LA : LawfulData CA) {acts : List (Action I A)} (hi : Inv CI CA acts)
    {x : Action I A} (hx : Possible CI CA (run CI CA acts) x) {i : I} (hr : NeverRestarts (acts ++ [x]) i)
    (hw : NeverWraps CI CA (acts ++ [x]) i) (h : Single CI CA acts i) : Single CI CA (acts ++ [x]) i := by
  have hle := facts_mono (CI := CI) (CA := CA) acts [x]
  have hrun := run_snoc (CI := CI) (CA := CA) acts x
  cases x with
  | start cfg env now =>
    by_cases hid : cfg.localId = i
    · have hnot : ¬ Started acts i := by
        rintro ⟨pre, cfg', env', now', post, rfl, he⟩
        exact hr pre cfg' env' now' post cfg env now [] (by simp) he hid
      have hst : Started (acts ++ [.start cfg env now]) i := ⟨acts, cfg, env, now, [], rfl, hid⟩
      have only : ∀ a, Announced CI CA (acts ++ [.start cfg env now]) a → a.node.id = i →
          ∃ P m, (run CI CA (acts ++ [.start cfg env now])).proc i = some P ∧ P.ep.core.members.get i = some m ∧
            aliveOf m.server m.incarnation = a := by
        intro a ha hai
        rcases announced_snoc ha with h1 | h1
        · exact absurd (h.started a h1 hai) hnot
        · rw [hai] at h1; exact h1
      have same : ∀ a a', Announced CI CA (acts ++ [.start cfg env now]) a →
          Announced CI CA (acts ++ [.start cfg env now]) a' → a.node.id = i → a'.node.id = i → a = a' := by
        intro a a' ha ha' hai hai'
        obtain ⟨P, m, h1, h2, rfl⟩ := only a ha hai
        obtain ⟨P', m', h3, h4, rfl⟩ := only a' ha' hai'
        rw [h1] at h3; cases h3
        rw [h2] at h4; cases h4
        rfl
      exact ⟨fun _ _ _ => hst, fun _ _ => hst, fun a a' ha ha' e e' _ => same a a' ha ha' e e',
        fun a a' ha ha' e e' => by rw [same a a' ha ha' e e'], fun P m hp hm a ha e =>
          .inr (same a _ ha (announced_now hp hm) e (get_id hm))⟩
    · refine h.quiet (fun P hp => ?_)
      rw [hrun] at hp
      simp only [act] at hp
      cases hn : tryNew cfg env now with
      | error _ => rw [hn] at hp; exact hp
      | ok e =>
        rw [hn] at hp
        dsimp only at hp
        rw [if_neg (fun e => hid e.symm)] at hp
        exact hp
  | crash j =>
    refine h.quiet (fun P hp => ?_)
    rw [hrun] at hp
    simp only [act] at hp
    split at hp
    · cases hp
    · exact hp
  | call j op =>
    by_cases hj : j = i
    · subst hj
      cases hpi : (run CI CA acts).proc j with
      | none =>
        refine h.quiet (fun P hp => ?_)
        rw [hrun] at hp
        simp only [act, hpi] at hp
        exact absurd hp nofun
      | some P =>
        have ok := hi.proc j P hpi
        obtain ⟨_, hsane, _, _, _, hacts⟩ := call_step LI LA hi hx hpi
        have hnew : (run CI CA (acts ++ [.call j op])).proc j = some { P with ep := (P.ep.step P.cfg P.env op).1 } := by
          rw [hrun]; simp only [act, hpi, if_true]
        obtain ⟨m, hm, hl⟩ := (reachable_good ok.reach).inv.loc
        have hann := announced_now hpi (by rw [← ok.id]; exact hm)
        have hmid : m.server.id = j := by rw [← ok.id]; exact get_id hm
        have hgrow := own_grows hsane (fun a ha e => hw a ha (e.trans ok.id)) ok.reach hacts hm
          (hw _ (hle.ann _ hann) hmid)
        obtain ⟨m', hm', hl'⟩ := (reachable_good (reachable_step ok.reach op)).inv.loc
        have hg := hgrow m' hm'
        have hm'id : m'.server.id = j := by rw [← ok.id]; exact get_id hm'
        -- everything said so far is old, or said now
        have sort : ∀ a, Announced CI CA (acts ++ [.call j op]) a → a.node.id = j →
            (Announced CI CA acts a ∧ a.incarnation ≤ m.incarnation) ∨ a = aliveOf m'.server m'.incarnation := by
          intro a ha hai
          rcases announced_snoc ha with h1 | ⟨P', m1, h1, h2, rfl⟩
          · refine .inl ⟨h1, ?_⟩
            rcases h.top P m hpi (by rw [← ok.id]; exact hm) a h1 hai with h2 | rfl
            · omega
            · exact Nat.le_refl _
          · rw [hai] at h1 h2
            rw [hnew] at h1; cases h1
            rw [ok.id] at hm'
            rw [hm'] at h2; cases h2
            exact .inr rfl
        have topOld : ∀ a, Announced CI CA acts a → a.node.id = j → a.incarnation ≤ m.incarnation →
            a.incarnation < m'.incarnation ∨ a = aliveOf m'.server m'.incarnation := by
          intro a ha hai hle'
          rcases hg with h1 | h1
          · rcases h.top P m hpi (by rw [← ok.id]; exact hm) a ha hai with h2 | h2
            · left
              have : m'.incarnation = m.incarnation := congrArg Alive.incarnation h1
              omega
            · exact .inr (h2.trans h1.symm)
          · exact .inl (by omega)
        have haddr : ∀ a, Announced CI CA (acts ++ [.call j op]) a → a.node.id = j → a.node.addr = P.cfg.advertise := by
          intro a ha hai
          rcases sort a ha hai with ⟨h1, _⟩ | rfl
          · rw [h.addr a _ h1 hann hai hmid]; exact hl.addr
          · exact hl'.addr
        exact {
          started := fun a ha e => by
            rcases sort a ha e with ⟨h1, _⟩ | _
            · exact (h.started a h1 e).mono _
            · exact (h.running P hpi).mono _
          running := fun _ _ => (h.running P hpi).mono _
          uniq := fun a a' ha ha' e e' hinc => by
            rcases sort a ha e with ⟨h1, h2⟩ | rfl
            · rcases sort a' ha' e' with ⟨h3, h4⟩ | rfl
              · exact h.uniq a a' h1 h3 e e' hinc
              · rcases topOld a h1 e h2 with h5 | h5
                · exact absurd hinc (Nat.ne_of_lt h5)
                · exact h5
            · rcases sort a' ha' e' with ⟨h3, h4⟩ | rfl
              · rcases topOld a' h3 e' h4 with h5 | h5
                · exact absurd hinc.symm (Nat.ne_of_lt h5)
                · exact h5.symm
              · rfl
          addr := fun a a' ha ha' e e' => (haddr a ha e).trans (haddr a' ha' e').symm
          top := fun Q q hq hqm a ha e => by
            rw [hnew] at hq; cases hq
            rw [ok.id] at hm'
            dsimp only at hqm
            rw [hm'] at hqm; cases hqm
            rcases sort a ha e with ⟨h1, h2⟩ | h1
            · exact topOld a h1 e h2
            · exact .inr h1 }
    · refine h.quiet (fun P hp => ?_)
      rw [hrun] at hp
      simp only [act] at hp
      split at hp
      · exact hp
      · dsimp only at hp
        rw [if_neg (fun e => hj e.symm)] at hp
        exact hp

theorem history_single (LI : LawfulData CI) (LA : LawfulData CA) {acts : List (Action I A)} (h : History CI CA acts)
    {i : I} (hr : NeverRestarts acts i) (hw : NeverWraps CI CA acts i) : Single CI CA acts i := by
  induction acts using snoc_induction with
  | h0 => exact single_empty i
  | h1 l a ih =>
    have hl : History CI CA l := fun pre x post he => h pre x (post ++ [a]) (by rw [he]; simp)
    refine single_snoc LI LA (history_inv LI LA hl) (h l a [] rfl) hr hw (ih hl ?_ ?_)
    · intro pre cfg env now mid cfg' env' now' post he
      exact hr pre cfg env now mid cfg' env' now' (post ++ [a]) (by rw [he]; simp)
    · exact fun x hx hi => hw x (Announced.mono hx [a]) hi

end Verif.Cluster
