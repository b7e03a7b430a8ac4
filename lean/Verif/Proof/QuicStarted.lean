import Verif.Proof.QuicFates
/-
The user messages the application started that wait are within the limit.
-/
namespace Verif.Quic
open Verif Map QBridge
variable {I A : Type} [DecidableEq I] [DecidableEq A] {Q : Quinn A}
variable {cfg : Cfg I A} {env : Env I A} {X : QCfg} {T : TEnv}

/-- What identifies a dial. -/
def dkey (d : QDial A) : Nat × A × ExKind := (d.id, d.peer, d.kind)

def isStarted (kinds : Map Nat ExKind) (p : A) (x : Nat × A × ExKind) : Bool :=
  decide (x.2.2 = .userMessage ∧ x.2.1 = p) && (kinds.get? x.1).isSome

omit [DecidableEq I] in
theorem startedTo_eq (s : Quic I Q) (p : A) : startedTo s p = (s.entries.map dkey).countP (isStarted s.kinds p) := by
  unfold startedTo
  rw [List.countP_map]
  rfl

/-- Of the user messages to one peer that wait, at most the limit were started by the application. -/
def StartedCap (X : QCfg) (s : Quic I Q) : Prop := ∀ p, startedTo s p ≤ X.maxUserDials

omit [DecidableEq I] in
theorem StartedCap.less {s s' : Quic I Q} (h : StartedCap X s) (x : List (Nat × A × ExKind))
    (hp : (s'.entries.map dkey ++ x).Perm (s.entries.map dkey))
    (hk : ∀ id, (s'.kinds.get? id).isSome = true → (s.kinds.get? id).isSome = true) : StartedCap X s' := by
  intro p
  refine Nat.le_trans ?_ (h p)
  rw [startedTo_eq, startedTo_eq, ← hp.countP_eq, List.countP_append]
  refine Nat.le_trans (List.countP_mono_left ?_) (Nat.le_add_right _ _)
  intro y _ hy
  unfold isStarted at hy ⊢
  rw [Bool.and_eq_true] at hy ⊢
  exact ⟨hy.1, hk _ hy.2⟩

omit [DecidableEq I] in
theorem StartedCap.same {s s' : Quic I Q} (h : StartedCap X s) (hp : s'.entries.Perm s.entries) (hk : s'.kinds = s.kinds) :
    StartedCap X s' :=
  h.less [] (by rw [List.append_nil]; exact hp.map _) (fun _ h => by rwa [hk] at h)

omit [DecidableEq I] in
theorem StartedCap.more {s s' : Quic I Q} (h : StartedCap X s) (l : List (QDial A)) (hp : s'.entries.Perm (l ++ s.entries))
    (hk : s'.kinds = s.kinds) (hl : ∀ d ∈ l, s.kinds.get? d.id = none) : StartedCap X s' := by
  intro p
  refine Nat.le_trans ?_ (h p)
  rw [startedTo_eq, startedTo_eq, (hp.map dkey).countP_eq, List.map_append, List.countP_append, hk]
  have : (l.map dkey).countP (isStarted s.kinds p) = 0 := by
    rw [List.countP_eq_zero]
    intro y hy
    obtain ⟨d, hd, rfl⟩ := List.mem_map.1 hy
    unfold isStarted dkey
    dsimp only
    rw [hl d hd]
    simp
  omega

theorem StartedCap.move {a b : Quic I Q} (h : StartedCap X a) (hn : NodeInv cfg env X a) (hm : Move cfg env X T a b) :
    StartedCap X b := by
  have hi := hn.ids
  have hk := hn.books
  cases hm with
  | push src bytes => unfold pushIngress; split <;> exact h.same (.refl _) rfl
  | sieve hh =>
    unfold takeDials
    rw [sieve_eq]
    refine h.more ((Coord.dialsOf a.ep.sieveDials.2).map (fromRequest a.ep)) ?_ rfl ?_
    · show ([] ++ flat a.parked ++ (a.dials ++ _) ++ a.limbo.toList).Perm (_ ++ (a.dials ++ flat a.parked ++ a.hand ++ a.limbo.toList))
      rw [hh]
      exact ((sieved_perm a.dials _ (flat a.parked)).append_right _).trans (by rw [List.append_assoc])
    · intro d hd
      obtain ⟨r, hr, rfl⟩ := List.mem_map.1 hd
      refine (unheld_kind hn.held (hi.queued (d := r) ?_)).1
      rw [dialsOf_eq] at hr
      unfold Ep.dialQ
      unfold Ep.sieveDials at hr
      rw [List.mem_filterMap] at hr ⊢
      obtain ⟨ev, he, h2⟩ := hr
      exact ⟨ev, (List.mem_filter.1 he).1, h2⟩
  | pollDial id peer deadline hp =>
    unfold setTimer
    rw [queueDial_eq]
    refine h.more [fromRequest (a.callEp cfg env none .pollEvent).1.ep (id, peer, deadline)] ?_ rfl ?_
    · show (a.dials ++ [_] ++ flat a.parked ++ a.hand ++ a.limbo.toList).Perm ([_] ++ (a.dials ++ flat a.parked ++ a.hand ++ a.limbo.toList))
      simp only [List.append_assoc]
      exact List.perm_append_comm_assoc ..
    · intro d hd
      rw [List.mem_singleton] at hd
      subst hd
      refine (unheld_kind hn.held (hi.queued (d := (id, peer, deadline)) ?_)).1
      unfold Ep.pollEvent at hp
      split at hp
      · cases hp
      · next ev rest hev =>
        dsimp only at hp
        injection hp with hp
        unfold Ep.dialQ
        rw [hev, hp]
        exact List.mem_filterMap.2 ⟨_, List.mem_cons_self, rfl⟩
  | takeDials hh =>
    refine h.same ?_ rfl
    show ([] ++ flat a.parked ++ a.dials ++ a.limbo.toList).Perm (a.dials ++ flat a.parked ++ a.hand ++ a.limbo.toList)
    rw [hh, List.append_nil, List.nil_append]
    exact List.perm_append_comm.append_right _
  | takeParked hh =>
    refine h.same ?_ rfl
    show (a.dials ++ [] ++ (a.takeParked T).hand ++ a.limbo.toList).Perm (a.dials ++ flat a.parked ++ a.hand ++ a.limbo.toList)
    rw [hh, List.append_nil, List.append_nil]
    exact ((taken_perm a).append_left _).append_right _
  | popParked peer d rest hh hp =>
    refine h.same ?_ rfl
    show (a.dials ++ flat (a.parked.insert peer rest) ++ [d] ++ a.limbo.toList).Perm (a.dials ++ flat a.parked ++ a.hand ++ a.limbo.toList)
    refine List.Perm.append_right _ ?_
    rw [hh, List.append_nil, List.append_assoc]
    refine List.Perm.append_left _ ?_
    refine ((flat_insert a.parked hk.np peer rest).append_right _).trans ?_
    refine List.Perm.trans ?_ (flat_erase hk.np hp).symm
    exact List.perm_append_comm
  | dropBucket peer hp =>
    refine h.same ?_ rfl
    show (a.dials ++ flat (a.parked.erase peer) ++ a.hand ++ a.limbo.toList).Perm (a.dials ++ flat a.parked ++ a.hand ++ a.limbo.toList)
    exact (((flat_erase hk.np hp).symm.append_left _).append_right _).append_right _
  | takeEntry d rest hh hl =>
    rw [takeEntry_eq]
    refine h.same ?_ rfl
    show (a.dials ++ flat a.parked ++ a.hand.tail ++ [d]).Perm a.entries
    rw [entries_none hl]
    unfold waiting
    rw [hh, List.tail_cons, List.append_assoc]
    exact (List.perm_append_comm (l₂ := [d])).append_left _
  | repark d now hl =>
    obtain ⟨w, hw⟩ := repark_waiting (X := X) hk d now
    obtain ⟨w2, hw2⟩ := repark_eq (X := X) a d now
    have hl' : (a.repark X d now).limbo = none := by rw [hw2]
    refine h.less [] ?_ (fun id hid => by rwa [hw2] at hid)
    rw [List.append_nil, entries_none hl', entries_some hl, List.map_append]
    refine (hw.map _).trans ?_
    rw [List.map_cons]
    exact List.perm_append_comm (l₁ := [dkey d])
  | retire d hl =>
    rw [retire_eq]
    refine h.less [dkey d] ?_ ?_
    · rw [entries_some hl, List.map_append]
      have : ({ a with kinds := a.kinds.erase d.id, peers := a.peers.erase d.id, limbo := none
                       ep := (a.lastWords d.id).foldl (fun e c => (e.step cfg env c.2).1) a.ep
                       calls := a.calls ++ a.lastWords d.id } : Quic I Q).entries = a.waiting := entries_none rfl
      rw [this]
      exact .refl _
    · intro id hid
      have hid : (Map.get? (a.kinds.erase d.id) id).isSome = true := hid
      rw [get?_erase] at hid
      split at hid
      · cases hid
      · exact hid
  | dialLost now peer ch hd hn' =>
    obtain ⟨e, he, _⟩ := dial_found hi.table hd
    rw [hn'] at he
    cases he
  | mint d now ch sid e t st hl hd he hc ht' hst =>
    generalize hs' : ((({ a with pool := { (a.pool.dial Q X.caps now d.peer).1 with table := t } } : Quic I Q).callEp cfg env
        (some d.id) (.dialSucceeded d.id now)).1.mintDialled cfg X st ch sid) = s'
    have e1 : s'.limbo = none := by rw [← hs']; rfl
    have e2 : s'.waiting = a.waiting := by rw [← hs']; rfl
    have k1 : s'.kinds = a.kinds := by rw [← hs']; rfl
    refine h.less [dkey d] ?_ (fun id hid => by rwa [k1] at hid)
    rw [entries_some hl, List.map_append, entries_none e1, e2]
    exact .refl _
  | launch op id peer deadline kind hh hl hs hlim =>
    obtain ⟨h1, _⟩ := started_facts hs
    have hf : id ∉ a.held := by rw [h1]; exact hi.fresh
    rw [launch_eq]
    have hp : ((a.dials ++ flat a.parked ++ [({ id, peer, deadline, wake := deadline, attempted := true, kind } : QDial A)] ++ a.limbo.toList).map dkey).Perm
        ((id, peer, kind) :: a.entries.map dkey) := by
      unfold entries waiting
      rw [hh, hl, List.append_nil]
      show (((a.dials ++ flat a.parked ++ [_] ++ []).map dkey)).Perm (_ :: ((a.dials ++ flat a.parked ++ []).map dkey))
      rw [List.append_nil, List.append_nil, List.map_append]
      exact List.perm_append_comm
    intro p
    rw [startedTo_eq]
    show ((a.dials ++ flat a.parked ++ [_] ++ a.limbo.toList).map dkey).countP (isStarted (a.kinds.insert id kind) p) ≤ _
    rw [hp.countP_eq, List.countP_cons]
    have hold : (a.entries.map dkey).countP (isStarted (a.kinds.insert id kind) p) = startedTo a p := by
      rw [startedTo_eq]
      refine List.countP_congr ?_
      intro y hy
      obtain ⟨d, hd, rfl⟩ := List.mem_map.1 hy
      have hne : id ≠ d.id := fun e => hf (e ▸ entry_held hd)
      unfold isStarted dkey
      dsimp only
      rw [get?_insert, if_neg hne]
    rw [hold]
    by_cases hc : kind = .userMessage ∧ peer = p
    · obtain ⟨c1, rfl⟩ := hc
      have hlim' := hlim c1
      rw [hk.backlog.exact] at hlim'
      have hle : startedTo a peer ≤ userTo a.waiting peer := by
        unfold startedTo userTo
        rw [entries_none hl]
        refine List.countP_mono_left ?_
        intro d _ hd
        rw [Bool.and_eq_true] at hd
        exact hd.1
      split <;> omega
    · rw [if_neg]
      · exact h p
      · unfold isStarted
        rw [Bool.and_eq_true]
        intro hy
        exact hc (of_decide_eq_true hy.1)
  | reap id ch b lost hb hbt _ hl =>
    have hap := reapBridge_apart (cfg := cfg) (env := env) a id b ch lost
    obtain ⟨r1, r2, r3, r4, r5, r6, _⟩ := preReap_rest (X := X) a id b ch lost
    have hent : (a.reapBridge cfg env id b ch lost).entries = a.entries := by
      unfold entries waiting
      rw [hap.dials, hap.parked, hap.hand, hap.limbo]
    refine h.less [] (by rw [List.append_nil, hent]) ?_
    intro x hx
    rw [reapBridge_pre] at hx
    have hera : ∀ y, (Map.get? (a.kinds.erase id) y).isSome = true → (a.kinds.get? y).isSome = true := by
      intro y hy
      rw [get?_erase] at hy
      split at hy
      · cases hy
      · exact hy
    rcases complete_cases (cfg := cfg) (env := env) (a.preReap id b ch lost) id (!b.isFailed) with ⟨_, h2⟩ | ⟨k, _, _, h2⟩ | ⟨k, p, _, _, h2⟩
    · rw [h2, r1] at hx; exact hx
    · rw [h2] at hx
      have hx : (Map.get? (Map.erase (a.preReap id b ch lost).kinds id) x).isSome = true := hx
      rw [r1] at hx; exact hera x hx
    · rw [h2] at hx
      have hx : (Map.get? (Map.erase (a.preReap id b ch lost).kinds id) x).isSome = true := hx
      rw [r1] at hx; exact hera x hx
  | _ => exact h.same (.refl _) rfl

/-- The bound over every history. -/
theorem started_run (hS : Q.Sound) {t0 : Nat} {e0 : Ep I A} (hnew : Ep.tryNew cfg env t0 = .ok e0) (q : Q.E) (cmp : CmpOptions)
    (ops : List (QOp I A)) : StartedCap X ((Quic.new e0 q cmp : Quic I Q).run cfg env X T ops) := by
  refine (run_inv (cfg := cfg) (env := env) (X := X) (T := T) (P := fun s => NodeInv cfg env X s ∧ StartedCap X s) hS
    (fun a b h hm => ⟨h.1.move hS hm, h.2.move h.1 hm⟩) (fun a h => ⟨h.1.pull, ?_⟩)
    (fun a ring h => ⟨h.1.wipe ring, h.2.same (.refl _) rfl⟩) ops (new_idle e0 q cmp) ⟨.new hnew q cmp, ?_⟩).1.2
  · unfold pollIngress
    split <;> exact h.2.same (.refl _) rfl
  · intro p; exact Nat.zero_le _

end Verif.Quic
