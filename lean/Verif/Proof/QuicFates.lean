import Verif.Proof.QuicAll
import Verif.Spec.Quic
/-
What becomes of the exchanges of the QUIC node, and of its queues, over whole histories.
-/
namespace Verif.Quic
open Verif Map QBridge
variable {I A : Type} [DecidableEq I] [DecidableEq A] {Q : Quinn A}
variable {cfg : Cfg I A} {env : Env I A} {X : QCfg} {T : TEnv}

/-! ### Datagrams -/

theorem step_feeds (hS : Q.Sound) {s : Quic I Q} (hi : Idle s) (op : QOp I A) (hop : ∀ ring, op ≠ .setEncryption ring) :
    ∃ l, s.ingress ++ l = (Spec.passedOn (op, (s.step cfg env X T op).2)).toList ++ (s.step cfg env X T op).1.ingress := by
  by_cases ht : Tame op
  · obtain ⟨l, hl⟩ := (step_ran (cfg := cfg) (env := env) (X := X) (T := T) hS op ht hi).moves.feeds
    refine ⟨l, ?_⟩
    have : Spec.passedOn (op, (s.step cfg env X T op).2) = none := by
      cases op <;> first | rfl | exact ht.elim
    rw [this, hl]; rfl
  · cases op with
    | pollIngress =>
      refine ⟨[], ?_⟩
      show s.ingress ++ [] = (s.pollIngress.2).toList ++ s.pollIngress.1.ingress
      unfold pollIngress
      rw [List.append_nil]
      split
      · next h => simp [h]
      · next h => simp [h]
    | setEncryption ring => exact absurd rfl (hop ring)
    | _ => exact absurd trivial ht

theorem step_idle (hS : Q.Sound) {s : Quic I Q} (hi : Idle s) (op : QOp I A) : Idle (s.step cfg env X T op).1 :=
  (run_inv (cfg := cfg) (env := env) (X := X) (T := T) (P := fun _ => True) hS (fun _ _ _ _ => trivial) (fun _ _ => trivial)
    (fun _ _ _ => trivial) [op] hi trivial).2

theorem run_feeds (hS : Q.Sound) (ops : List (QOp I A)) : ∀ {s : Quic I Q}, Idle s →
    (∀ op ∈ ops, ∀ ring, op ≠ .setEncryption ring) →
    ∃ l, s.ingress ++ l = Spec.passedOut ops (s.outs cfg env X T ops) ++ (s.run cfg env X T ops).ingress := by
  induction ops with
  | nil => intro s _ _; exact ⟨[], List.append_nil _⟩
  | cons op ops ih =>
    intro s hi hop
    obtain ⟨l, hl⟩ := step_feeds (cfg := cfg) (env := env) (X := X) (T := T) hS hi op (hop op List.mem_cons_self)
    obtain ⟨l2, hl2⟩ := ih (step_idle (cfg := cfg) (env := env) (X := X) (T := T) hS hi op)
      (fun x hx => hop x (List.mem_cons_of_mem _ hx))
    refine ⟨l ++ l2, ?_⟩
    rw [← List.append_assoc, hl, List.append_assoc, hl2, ← List.append_assoc]
    congr 1
    simp only [outs, Spec.passedOut, List.zip_cons_cons, List.filterMap_cons]
    cases Spec.passedOn (op, (s.step cfg env X T op).2) <;> rfl

omit [DecidableEq I] in
theorem pendingOf_eq (l : List (A × Bytes)) (p : A) : pendingOf l p = Spec.numFrom l p := by
  unfold pendingOf Spec.numFrom; rw [List.countP_eq_length_filter]

/-! ### Dials -/

omit [DecidableEq I] [DecidableEq A] in
theorem Idle.waiting {s : Quic I Q} (h : Idle s) : s.waiting = Spec.waitingDials s := by
  unfold Quic.waiting Spec.waitingDials flat; rw [h.calm.hand, List.append_nil]

omit [DecidableEq I] [DecidableEq A] in
theorem Idle.entries {s : Quic I Q} (h : Idle s) : s.entries = Spec.waitingDials s := by
  unfold Quic.entries; rw [h.waiting, h.calm.limbo]; exact List.append_nil _

omit [DecidableEq I] in
theorem userTo_eq {s : Quic I Q} (h : Idle s) (p : A) : userTo s.waiting p = Spec.waitingMessages s p := by
  unfold userTo Spec.waitingMessages; rw [h.waiting, List.countP_eq_length_filter]

/-- At most the allowed number of the user messages the application started to one peer wait. -/
def startedTo (s : Quic I Q) (p : A) : Nat :=
  s.entries.countP (fun d => decide (d.kind = .userMessage ∧ d.peer = p) && (s.kinds.get? d.id).isSome)

/-! ### Exchanges -/

theorem Fate.moves (hS : Q.Sound) {a b : Quic I Q} (h : NodeInv cfg env X a) (hm : Moves cfg env X T a b) {id : Nat} {p : A}
    {k : ExKind} (hf : Fate a id p k) : Fate b id p k := by
  refine (hm.inv (P := fun s => NodeInv cfg env X s ∧ Fate s id p k) ?_ ⟨h, hf⟩).2
  exact fun a b h hm => ⟨h.1.move hS hm, h.2.move h.1.held h.1.ids hm⟩

theorem Fate.run (hS : Q.Sound) {s : Quic I Q} (hi : Idle s) (h : NodeInv cfg env X s) {id : Nat} {p : A} {k : ExKind}
    (hf : Fate s id p k) (ops : List (QOp I A)) : Fate (s.run cfg env X T ops) id p k := by
  refine (run_inv (cfg := cfg) (env := env) (X := X) (T := T) (P := fun s => NodeInv cfg env X s ∧ Fate s id p k) hS
    (fun a b h hm => ⟨h.1.move hS hm, h.2.move h.1.held h.1.ids hm⟩) (fun a h => ⟨h.1.pull, ?_⟩)
    (fun a ring h => ⟨h.1.wipe ring, h.2.same rfl rfl [] (List.append_nil _).symm⟩) ops hi ⟨h, hf⟩).1.2
  unfold pollIngress
  split <;> exact h.2.same rfl rfl [] (List.append_nil _).symm

/-- A started exchange has its fate from the start. -/
theorem launched_fate (hS : Q.Sound) {s : Quic I Q} {op : Ep.Op I A} {id : Nat} {peer : A} {deadline : Nat} {kind : ExKind}
    (now : Nat) (hi : Idle s) (h : NodeInv cfg env X s) (hs : Started cfg env s.ep op id peer deadline kind)
    (hk : kind = .userMessage → ConnTable.count s.backlog peer < X.maxUserDials) :
    Fate ((({ s with lastNow := some now }.callEp cfg env none op).1.launch id peer deadline kind).serviceStarted
      cfg env X T { id, peer, deadline, wake := deadline, attempted := true, kind } now) id peer kind := by
  have h0 : Moves cfg env X T s { s with lastNow := some now } := .one (.book ..)
  have h1 := h0.snoc (Move.launch (cfg := cfg) (env := env) (X := X) (T := T) op id peer deadline kind hi.calm.hand hi.calm.limbo hs hk)
  obtain ⟨l1, l2, l3, l4⟩ := launch_fields ({ s with lastNow := some now }.callEp cfg env none op).1 id peer deadline kind
  have h2 := serviceStarted_ran (cfg := cfg) (env := env) (X := X) (T := T) hS
    { id, peer, deadline, wake := deadline, attempted := true, kind } now l1 (l2.trans hi.calm.limbo) (l3.trans hi.calm.doom) (l4.trans hi.hot)
  refine Fate.moves hS (h.moves hS h1) h2.moves (.inl ?_)
  rw [launch_eq]
  exact ⟨get?_insert_self _ _ _, get?_insert_self _ _ _⟩

theorem startPushPull_fate (hS : Q.Sound) {s : Quic I Q} (peer : A) (kind : PushPullKind) (now : Nat) (hi : Idle s)
    (h : NodeInv cfg env X s) :
    Fate (s.startPushPull cfg env X T peer kind now).1 (s.startPushPull cfg env X T peer kind now).2 peer .pushPull := by
  unfold startPushPull
  dsimp only
  split
  · next i hx => exact launched_fate hS now hi h (.pushPull peer kind now i hx) (by intro h; cases h)
  · exact .inr (.inl ⟨false, List.mem_append_right _ (List.mem_singleton.2 rfl)⟩)

theorem startReliablePing_fate (hS : Q.Sound) {s : Quic I Q} (pid : I) (peer : A) (seq deadline now : Nat) (hi : Idle s)
    (h : NodeInv cfg env X s) (hr : s.ep.isRunning = true) :
    Fate (s.startReliablePing cfg env X T pid peer seq deadline now).1
      (s.startReliablePing cfg env X T pid peer seq deadline now).2 peer .reliablePing := by
  unfold startReliablePing
  dsimp only
  split
  · next i hx => exact launched_fate hS now hi h (.reliablePing pid peer seq deadline i hx) (by intro h; cases h)
  · next hx =>
    exfalso
    unfold Ep.startReliablePingDirect at hx
    dsimp only at hx
    split at hx
    · next hc =>
      have hr' : (!s.ep.isRunning) = true := hc
      rw [hr] at hr'
      cases hr'
    · cases hx

theorem startUserMessage_fate (hS : Q.Sound) {s : Quic I Q} (peer : A) (payload : Bytes) (now : Nat) (hi : Idle s)
    (h : NodeInv cfg env X s) {id : Nat} (hok : (s.startUserMessage cfg env X T peer payload now).2 = .ok id) :
    Fate (s.startUserMessage cfg env X T peer payload now).1 id peer .userMessage := by
  revert hok
  unfold startUserMessage
  dsimp only
  split
  · intro h; cases h
  · next hc =>
    split
    · intro h; cases h
    · next id' i hx =>
      intro h'
      cases h'
      exact launched_fate hS now hi h (.userMessage peer payload now id i hx) (fun _ => Nat.lt_of_not_le hc)

omit [DecidableEq I] in
theorem mem_told {calls : List (Option Nat × Ep.Op I A)} {x : Nat} {r : Completion A} :
    Spec.Told.report r ∈ Spec.told calls x ↔ (some x, Ep.Op.external (some r)) ∈ calls := by
  unfold Spec.told
  simp only [List.mem_filterMap, List.mem_map, List.mem_filter, decide_eq_true_eq]
  constructor
  · rintro ⟨op, ⟨⟨y, op'⟩, ⟨h1, h2⟩, rfl⟩, h3⟩
    dsimp only at h2 h3
    subst h2
    unfold Spec.toldOf at h3
    split at h3
    · cases h3
    · cases h3; exact h1
    · cases h3
  · intro h
    exact ⟨_, ⟨_, ⟨h, rfl⟩, rfl⟩, rfl⟩

theorem underway {s : Quic I Q} (hi : Idle s) (h : NodeInv cfg env X s) {x : Nat} {p : A} {k : ExKind}
    (hk : s.kinds.get? x = some k) (hp : s.peers.get? x = some p) : Spec.Underway s x p k := by
  refine ⟨hk, hp, ?_⟩
  have hm := h.held.held x (by rw [hk]; rfl)
  unfold Quic.held at hm
  rcases List.mem_append.1 hm with hm | hm
  · left
    obtain ⟨d, hd, rfl⟩ := List.mem_map.1 hm
    obtain ⟨h1, h2⟩ := h.held.entry d hd k hk
    rw [hp] at h2
    injection h2 with h2
    rw [hi.entries] at hd
    exact ⟨d, hd, rfl, h2.symm, h1.symm⟩
  · right
    obtain ⟨b, hb⟩ := Option.isSome_iff_exists.1 (mem_keys_iff.1 hm)
    obtain ⟨h1, h2⟩ := h.held.bridge x b hb
    exact ⟨b, hb, h1, h2 p hp⟩

/-! ### Reports -/

omit [DecidableEq I] [DecidableEq A] in
theorem reports_count (calls : List (Option Nat × Ep.Op I A)) (x : Nat) :
    (Spec.reportsOf (Spec.told calls x)).length = (calls.filterMap reportedId).count x := by
  induction calls with
  | nil => rfl
  | cons c calls ih =>
    obtain ⟨y, op⟩ := c
    have hsplit : Spec.told ((y, op) :: calls) x = (if y = some x then (Spec.toldOf op).toList else []) ++ Spec.told calls x := by
      unfold Spec.told
      by_cases hy : y = some x
      · simp only [hy, List.filter_cons, decide_true, if_true, List.map_cons, List.filterMap_cons]
        cases Spec.toldOf op <;> rfl
      · simp [List.filter_cons, hy]
    have hadd : ∀ l l' : List (Spec.Told I A), Spec.reportsOf (l ++ l') = Spec.reportsOf l ++ Spec.reportsOf l' :=
      fun _ _ => List.filterMap_append
    rw [hsplit, hadd, List.length_append, ih, List.filterMap_cons]
    cases y with
    | none => simp [reportedId, Spec.reportsOf]
    | some y =>
      by_cases hy : y = x
      · subst hy
        cases op with
        | external r =>
          cases r with
          | none => simp [reportedId, Spec.reportsOf, Spec.toldOf]
          | some r => simp [reportedId, Spec.reportsOf, Spec.toldOf]; omega
        | streamEvent ev now => cases ev <;> simp [reportedId, Spec.reportsOf, Spec.toldOf]
        | _ => simp [reportedId, Spec.reportsOf, Spec.toldOf]
      · have hne : ¬ (some y = some x) := fun h => hy (Option.some.inj h)
        rw [if_neg hne]
        cases op with
        | external r =>
          cases r with
          | none => simp [reportedId, Spec.reportsOf]
          | some r => simp [reportedId, Spec.reportsOf, hy]
        | _ => simp [reportedId, Spec.reportsOf]

theorem reported_once {s : Quic I Q} (h : NodeInv cfg env X s) (x : Nat) :
    (Spec.reportsOf (Spec.told s.calls x)).length ≤ 1 := by
  rw [reports_count]
  have h1 := h.ids.ids.nodup
  have h2 : s.done.Nodup := (h1.sublist (List.sublist_append_left _ _)).sublist (List.sublist_append_left _ _)
  exact List.nodup_iff_count_le_one.1 h2 x

/-- A reported exchange is not held. -/
theorem reported_gone {s : Quic I Q} (hi : Idle s) (h : NodeInv cfg env X s) {x : Nat} {r : Completion A} (hr : Spec.Reported s x r) :
    r.exchange = x ∧ s.kinds.get? x = none ∧ s.peers.get? x = none ∧ s.bridges.get? x = none ∧
    ∀ d ∈ Spec.waitingDials s, d.id ≠ x := by
  have hc := mem_told.1 hr
  obtain ⟨r', h1, h2⟩ := h.signed _ hc _ rfl
  cases h1
  have hd : x ∈ s.done := List.mem_filterMap.2 ⟨_, hc, rfl⟩
  have hn : x ∉ s.held := fun hm =>
    List.disjoint_of_nodup_append (h.ids.ids.nodup.sublist (List.sublist_append_left _ _)) hd hm
  obtain ⟨h3, h4⟩ := unheld_kind h.held hn
  refine ⟨(Option.some.inj h2).symm, h3, h4, ?_, ?_⟩
  · cases hb : s.bridges.get? x with
    | none => rfl
    | some b => exact absurd (List.mem_append_right _ (mem_keys.2 ⟨b, mem_of_get? hb⟩)) hn
  · intro d hd' he
    rw [← hi.entries] at hd'
    exact hn (he ▸ entry_held hd')

/-! ### Leaving -/

theorem purgeDial_eq (s : Quic I Q) (d : QDial A) : ∃ un bl ix, s.purgeDial cfg env d = { s with
    unattempted := un, backlog := bl, index := ix, hand := s.hand.tail
    kinds := s.kinds.erase d.id, peers := s.peers.erase d.id, limbo := none
    ep := (s.lastWords d.id).foldl (fun e c => (e.step cfg env c.2).1) s.ep
    calls := s.calls ++ s.lastWords d.id } := by
  unfold purgeDial
  rw [retire_eq, takeEntry_eq]
  exact ⟨_, _, _, rfl⟩

theorem purge_fold (l : List (QDial A)) : ∀ (s : Quic I Q), (l.map QDial.id).Nodup →
    let s' := l.foldl (purgeDial cfg env) s
    s'.dials = s.dials ∧ s'.parked = s.parked ∧ s'.bridges = s.bridges ∧
    (∀ c ∈ s.calls, c ∈ s'.calls) ∧ (∀ d ∈ l, ∀ c ∈ s.lastWords d.id, c ∈ s'.calls) ∧
    (∀ x, x ∉ l.map QDial.id → s'.lastWords x = s.lastWords x) := by
  induction l with
  | nil => intro s _; exact ⟨rfl, rfl, rfl, fun _ h => h, by simp, fun _ _ => rfl⟩
  | cons d l ih =>
    intro s hn
    obtain ⟨un, bl, ix, he⟩ := purgeDial_eq (cfg := cfg) (env := env) s d
    rw [List.map_cons, List.nodup_cons] at hn
    obtain ⟨h1, h2, h3, h4, h5, h6⟩ := ih (s.purgeDial cfg env d) hn.2
    have hw : ∀ x, x ≠ d.id → (s.purgeDial cfg env d).lastWords x = s.lastWords x := by
      intro x hx
      rw [he]
      unfold lastWords
      dsimp only
      rw [get?_erase, get?_erase, if_neg (Ne.symm hx), if_neg (Ne.symm hx)]
    rw [List.foldl_cons]
    refine ⟨by rw [h1, he], by rw [h2, he], by rw [h3, he], ?_, ?_, ?_⟩
    · intro c hc
      refine h4 c ?_
      rw [he]
      exact List.mem_append_left _ hc
    · intro d' hd' c hc
      rcases List.mem_cons.1 hd' with rfl | hd'
      · refine h4 c ?_
        rw [he]
        exact List.mem_append_right _ hc
      · refine h5 d' hd' c ?_
        rw [hw]
        · exact hc
        · intro e; exact hn.1 (e ▸ List.mem_map_of_mem hd')
    · intro x hx
      rw [List.map_cons, List.mem_cons, not_or] at hx
      rw [h6 x hx.2, hw x hx.1]

theorem purged {s : Quic I Q} (hn : (s.waiting.map QDial.id).Nodup) :
    let s' := s.purgeDials cfg env T
    Spec.waitingDials s' = [] ∧ s'.bridges = s.bridges ∧
    (∀ c ∈ s.calls, c ∈ s'.calls) ∧ (∀ d ∈ Spec.waitingDials s, ∀ c ∈ s.lastWords d.id, c ∈ s'.calls) := by
  have hn' : (s.dials.map QDial.id ++ (flat s.parked).map QDial.id).Nodup := by
    unfold Quic.waiting at hn
    rw [List.map_append] at hn
    have := hn.sublist (List.sublist_append_left _ _)
    rwa [List.map_append] at this
  obtain ⟨a1, a2, a3, a4, a5, a6⟩ := purge_fold (cfg := cfg) (env := env) s.dials s.takeDials (hn'.sublist (List.sublist_append_left _ _))
  generalize hs1 : s.dials.foldl (purgeDial cfg env) s.takeDials = s1 at a1 a2 a3 a4 a5 a6
  have hp := taken_perm (T := T) s1
  have a2' : s1.parked = s.parked := a2
  rw [a2'] at hp
  obtain ⟨b1, b2, b3, b4, b5, b6⟩ := purge_fold (cfg := cfg) (env := env) (s1.takeParked T).hand (s1.takeParked T)
    ((hp.map QDial.id).nodup_iff.2 (hn'.sublist (List.sublist_append_right _ _)))
  have e : s.purgeDials cfg env T = { (s1.takeParked T).hand.foldl (purgeDial cfg env) (s1.takeParked T) with readyDials := [] } := by
    rw [← hs1]; rfl
  dsimp only
  rw [e]
  refine ⟨?_, ?_, ?_, ?_⟩
  · unfold Spec.waitingDials
    dsimp only
    rw [b1, b2]
    show s1.dials ++ [] = []
    rw [a1]; rfl
  · exact b3.trans a3
  · exact fun c hc => b4 c (a4 c hc)
  · intro d hd c hc
    rcases List.mem_append.1 hd with hd | hd
    · exact b4 c (a5 d hd c hc)
    · refine b5 d (hp.symm.subset hd) c ?_
      show c ∈ s1.lastWords d.id
      rw [a6]
      · exact hc
      · intro hm
        exact List.disjoint_of_nodup_append hn' hm (List.mem_map_of_mem hd)

end Verif.Quic
