import Verif.Proof.QuicIds
/-
What the QUIC node knows of the exchanges it holds, and that none is lost without a report.
-/
namespace Verif.Quic
open Verif Map QBridge
variable {I A : Type} [DecidableEq I] [DecidableEq A] {Q : Quinn A}
variable {cfg : Cfg I A} {env : Env I A} {X : QCfg} {T : TEnv}

/-- A connection just dialled is there, and leads to the peer. -/
theorem dial_found {s : Quic I Q} (h : TableInv Q X.caps s.pool.table) {now : Nat} {peer : A} {ch : Nat}
    (hd : (s.pool.dial Q X.caps now peer).2 = .ok ch) :
    ∃ e, (s.pool.dial Q X.caps now peer).1.table.conns.get? ch = some e ∧ e.peer = peer := by
  unfold Pool.dial at hd ⊢
  rcases getOrDial_spec h s.pool.quinn now peer with ⟨c, e, h1, h2, _, h3⟩ | ⟨_, ⟨m, _, _, h3⟩ | ⟨_, ⟨_, h3⟩ | ⟨c, _, h3⟩⟩⟩
  · rw [h3] at hd ⊢
    injection hd with hd
    subst hd
    obtain ⟨e', h4, h5⟩ := h.route peer c h1
    exact ⟨e', h4, h5⟩
  · rw [h3] at hd; cases hd
  · rw [h3] at hd; cases hd
  · rw [h3] at hd ⊢
    injection hd with hd
    subst hd
    exact ⟨_, get?_insert_self .., rfl⟩

structure HeldInv (s : Quic I Q) : Prop where
  sync : ∀ id, (s.kinds.get? id).isSome = (s.peers.get? id).isSome
  entry : ∀ d ∈ s.entries, ∀ k, s.kinds.get? d.id = some k → k = d.kind ∧ s.peers.get? d.id = some d.peer
  bridge : ∀ id b, s.bridges.get? id = some b → b.stream.id = id ∧ ∀ p, s.peers.get? id = some p → b.stream.peer = p
  held : ∀ id, (s.kinds.get? id).isSome = true → id ∈ s.held

/-- The names of a dial. -/
def Same (d d' : QDial A) : Prop := d.id = d'.id ∧ d.peer = d'.peer ∧ d.kind = d'.kind

theorem HeldInv.same {s s' : Quic I Q} (h : HeldInv s) (hk : s'.kinds = s.kinds) (hp : s'.peers = s.peers)
    (he : ∀ d ∈ s'.entries, ∃ d' ∈ s.entries, d.id = d'.id ∧ d.peer = d'.peer ∧ d.kind = d'.kind)
    (hb : ∀ id b', s'.bridges.get? id = some b' → ∃ b, s.bridges.get? id = some b ∧
      b'.stream.id = b.stream.id ∧ b'.stream.peer = b.stream.peer)
    (hh : ∀ id, id ∈ s.held → id ∈ s'.held) : HeldInv s' := by
  refine ⟨fun id => by rw [hk, hp]; exact h.sync id, ?_, ?_, ?_⟩
  · intro d hd k hk'
    obtain ⟨d', hd', h1, h2, h3⟩ := he d hd
    rw [hk, h1] at hk'
    rw [hp, h1, h2, h3]
    exact h.entry d' hd' k hk'
  · intro id b' hb'
    obtain ⟨b, hb1, h1, h2⟩ := hb id b' hb'
    rw [hp, h1, h2]
    exact h.bridge id b hb1
  · intro id hk'
    rw [hk] at hk'
    exact hh id (h.held id hk')

/-- The same dials and bridges. -/
theorem HeldInv.quiet {s s' : Quic I Q} (h : HeldInv s) (hk : s'.kinds = s.kinds) (hp : s'.peers = s.peers)
    (he : s'.entries.Perm s.entries) (hb : s'.bridges = s.bridges) : HeldInv s' := by
  refine h.same hk hp (entries_same he) ?_ ?_
  · intro id b' hb'; rw [hb] at hb'; exact ⟨b', hb', rfl, rfl⟩
  · intro id hid
    unfold Quic.held at hid ⊢
    rw [hb]
    exact ((he.map _).append_right _).symm.subset hid

/-- A bridge changed. -/
theorem HeldInv.put {s s' : Quic I Q} (h : HeldInv s) {id : Nat} {b b' : QBridge I A} (hb : s.bridges.get? id = some b)
    (h1 : b'.stream.id = b.stream.id) (h2 : b'.stream.peer = b.stream.peer) (hk : s'.kinds = s.kinds) (hp : s'.peers = s.peers)
    (he : s'.entries = s.entries) (hb' : s'.bridges = s.bridges.insert id b') : HeldInv s' := by
  refine h.same hk hp (entries_same (by rw [he])) ?_ ?_
  · intro x c hc
    rw [hb', get?_insert] at hc
    split at hc
    · next e => subst e; injection hc with hc; subst hc; exact ⟨b, hb, h1, h2⟩
    · exact ⟨c, hc, rfl, rfl⟩
  · intro x hx
    unfold Quic.held at hx ⊢
    rw [he, hb', keys_old hb]
    exact hx

/-- An exchange that waits to be dialled has no other entry. -/
theorem unheld_kind {s : Quic I Q} (h : HeldInv s) {id : Nat} (hn : id ∉ s.held) : s.kinds.get? id = none ∧ s.peers.get? id = none := by
  have hk : s.kinds.get? id = none := by
    cases hk : s.kinds.get? id with
    | none => rfl
    | some k => exact absurd (h.held id (by rw [hk]; rfl)) hn
  refine ⟨hk, ?_⟩
  have := h.sync id
  rw [hk] at this
  cases hp : s.peers.get? id with
  | none => rfl
  | some p => rw [hp] at this; cases this

theorem IdsInv.queued {s : Quic I Q} (h : IdsInv cfg env X [] s) {d : Nat × A × Nat} (hd : d ∈ Ep.dialQ s.ep) : d.1 ∉ s.held := by
  intro hm
  exact (List.disjoint_of_nodup_append h.ids.nodup) (List.mem_append_right _ hm) (List.mem_map_of_mem hd)

/-- More dials that nothing is known of. -/
theorem HeldInv.more {s s' : Quic I Q} (h : HeldInv s) (l : List (QDial A)) (hk : s'.kinds = s.kinds) (hp : s'.peers = s.peers)
    (he : s'.entries.Perm (l ++ s.entries)) (hb : s'.bridges = s.bridges) (hl : ∀ d ∈ l, d.id ∉ s.held) : HeldInv s' := by
  refine ⟨fun id => by rw [hk, hp]; exact h.sync id, ?_, ?_, ?_⟩
  · intro d hd k hk'
    rw [hk] at hk'
    rw [hp]
    rcases List.mem_append.1 (he.subset hd) with hm | hm
    · rw [(unheld_kind h (hl d hm)).1] at hk'; cases hk'
    · exact h.entry d hm k hk'
  · rw [hb, hp]; exact h.bridge
  · intro id hid
    rw [hk] at hid
    have := h.held id hid
    unfold Quic.held at this ⊢
    rw [hb]
    rcases List.mem_append.1 this with hm | hm
    · refine List.mem_append_left _ ((he.map _).symm.subset ?_)
      rw [List.map_append]
      exact List.mem_append_right _ hm
    · exact List.mem_append_right _ hm

theorem IdsInv.held_nodup {s : Quic I Q} (h : IdsInv cfg env X [] s) : s.held.Nodup :=
  (h.ids.nodup.sublist (List.sublist_append_left _ _)).sublist (List.sublist_append_right _ _)

theorem HeldInv.move {a b : Quic I Q} (h : HeldInv a) (hi : IdsInv cfg env X [] a) (hk : BooksInv a) (hm : Move cfg env X T a b) :
    HeldInv b := by
  cases hm with
  | push src bytes => unfold pushIngress; split <;> exact h.quiet rfl rfl (.refl _) rfl
  | @commit id b0 ev rest b' now hb hev hr hb' => exact h.put hb hb'.alike.id hb'.alike.peer rfl rfl rfl rfl
  | tweak hb hm => exact h.put hb hm.alike.id hm.alike.peer rfl rfl rfl rfl
  | sieve hh =>
    unfold takeDials
    rw [sieve_eq]
    refine h.more ((Coord.dialsOf a.ep.sieveDials.2).map (fromRequest a.ep)) rfl rfl ?_ rfl ?_
    · show ([] ++ flat a.parked ++ (a.dials ++ _) ++ a.limbo.toList).Perm (_ ++ (a.dials ++ flat a.parked ++ a.hand ++ a.limbo.toList))
      rw [hh]
      exact ((sieved_perm a.dials _ (flat a.parked)).append_right _).trans (by rw [List.append_assoc])
    · intro d hd
      obtain ⟨r, hr, rfl⟩ := List.mem_map.1 hd
      refine hi.queued (d := r) ?_
      rw [dialsOf_eq] at hr
      unfold Ep.dialQ
      unfold Ep.sieveDials at hr
      rw [List.mem_filterMap] at hr ⊢
      obtain ⟨ev, he, h2⟩ := hr
      exact ⟨ev, (List.mem_filter.1 he).1, h2⟩
  | pollDial id peer deadline hp =>
    unfold setTimer
    rw [queueDial_eq]
    refine h.more [fromRequest (a.callEp cfg env none .pollEvent).1.ep (id, peer, deadline)] rfl rfl ?_ rfl ?_
    · show (a.dials ++ [_] ++ flat a.parked ++ a.hand ++ a.limbo.toList).Perm ([_] ++ (a.dials ++ flat a.parked ++ a.hand ++ a.limbo.toList))
      simp only [List.append_assoc]
      exact List.perm_append_comm_assoc ..
    · intro d hd
      rw [List.mem_singleton] at hd
      subst hd
      refine hi.queued (d := (id, peer, deadline)) ?_
      unfold Ep.pollEvent at hp
      split at hp
      · cases hp
      · next ev rest hev =>
        dsimp only at hp
        injection hp with hp
        unfold Ep.dialQ
        rw [hev, hp]
        exact List.mem_filterMap.2 ⟨_, List.mem_cons_self, rfl⟩
  | takeDials hh =>
    refine h.quiet rfl rfl ?_ rfl
    show ([] ++ flat a.parked ++ a.dials ++ a.limbo.toList).Perm (a.dials ++ flat a.parked ++ a.hand ++ a.limbo.toList)
    rw [hh, List.append_nil, List.nil_append]
    exact List.perm_append_comm.append_right _
  | takeParked hh =>
    refine h.quiet rfl rfl ?_ rfl
    show (a.dials ++ [] ++ (a.takeParked T).hand ++ a.limbo.toList).Perm (a.dials ++ flat a.parked ++ a.hand ++ a.limbo.toList)
    rw [hh, List.append_nil, List.append_nil]
    exact ((taken_perm a).append_left _).append_right _
  | popParked peer d rest hh hp =>
    refine h.quiet rfl rfl ?_ rfl
    show (a.dials ++ flat (a.parked.insert peer rest) ++ [d] ++ a.limbo.toList).Perm (a.dials ++ flat a.parked ++ a.hand ++ a.limbo.toList)
    refine List.Perm.append_right _ ?_
    rw [hh, List.append_nil, List.append_assoc]
    refine List.Perm.append_left _ ?_
    refine ((flat_insert a.parked hk.np peer rest).append_right _).trans ?_
    refine List.Perm.trans ?_ (flat_erase hk.np hp).symm
    exact List.perm_append_comm
  | dropBucket peer hp =>
    refine h.quiet rfl rfl ?_ rfl
    show (a.dials ++ flat (a.parked.erase peer) ++ a.hand ++ a.limbo.toList).Perm (a.dials ++ flat a.parked ++ a.hand ++ a.limbo.toList)
    exact (((flat_erase hk.np hp).symm.append_left _).append_right _).append_right _
  | takeEntry d rest hh hl =>
    rw [takeEntry_eq]
    refine h.quiet rfl rfl ?_ rfl
    show (a.dials ++ flat a.parked ++ a.hand.tail ++ [d]).Perm a.entries
    rw [entries_none hl]
    unfold waiting
    rw [hh, List.tail_cons, List.append_assoc]
    exact (List.perm_append_comm (l₂ := [d])).append_left _
  | repark d now hl =>
    obtain ⟨w, hw⟩ := repark_waiting (X := X) hk d now
    obtain ⟨w2, hw2⟩ := repark_eq (X := X) a d now
    have hl' : (a.repark X d now).limbo = none := by rw [hw2]
    have e1 : (a.repark X d now).entries.Perm ({ d with wake := w, attempted := true } :: a.waiting) := by
      rw [entries_none hl']; exact hw
    refine h.same (by rw [hw2]) (by rw [hw2]) ?_ ?_ ?_
    · intro x hx
      rcases List.mem_cons.1 (e1.subset hx) with rfl | hx
      · exact ⟨d, by rw [entries_some hl]; simp, rfl, rfl, rfl⟩
      · exact ⟨x, by rw [entries_some hl]; exact List.mem_append_left _ hx, rfl, rfl, rfl⟩
    · intro id b' hb'
      rw [show (a.repark X d now).bridges = a.bridges by rw [hw2]] at hb'
      exact ⟨b', hb', rfl, rfl⟩
    · intro id hid
      unfold Quic.held at hid ⊢
      rw [show (a.repark X d now).bridges = a.bridges by rw [hw2]]
      rw [entries_some hl] at hid
      rcases List.mem_append.1 hid with hm | hm
      · refine List.mem_append_left _ ((e1.map _).symm.subset ?_)
        rw [List.map_append] at hm
        rcases List.mem_append.1 hm with hm | hm
        · exact List.mem_cons_of_mem _ hm
        · rw [List.map_cons, List.map_nil, List.mem_singleton] at hm
          rw [hm]; exact List.mem_cons_self
      · exact List.mem_append_right _ hm
  | retire d hl =>
    have hnd := hi.held_nodup
    unfold Quic.held at hnd
    rw [entries_some hl, List.map_append, List.append_assoc] at hnd
    have hw : d.id ∉ a.waiting.map QDial.id := fun hm =>
      (List.disjoint_of_nodup_append hnd) hm (List.mem_append_left _ (by simp))
    rw [retire_eq]
    refine ⟨?_, ?_, ?_, ?_⟩
    · intro id
      show (Map.get? (a.kinds.erase d.id) id).isSome = (Map.get? (a.peers.erase d.id) id).isSome
      rw [get?_erase, get?_erase]
      split
      · rfl
      · exact h.sync id
    · intro x hx k hk'
      have hx : x ∈ a.waiting := by
        have := entries_none (s := { a with
          kinds := a.kinds.erase d.id, peers := a.peers.erase d.id, limbo := none
          ep := (a.lastWords d.id).foldl (fun e c => (e.step cfg env c.2).1) a.ep
          calls := a.calls ++ a.lastWords d.id }) rfl
        rw [this] at hx
        exact hx
      have hne : x.id ≠ d.id := fun he => hw (he ▸ List.mem_map_of_mem hx)
      show k = x.kind ∧ Map.get? (a.peers.erase d.id) x.id = some x.peer
      have hk' : Map.get? (a.kinds.erase d.id) x.id = some k := hk'
      rw [get?_erase, if_neg (Ne.symm hne)] at hk' ⊢
      exact h.entry x (by rw [entries_some hl]; exact List.mem_append_left _ hx) k hk'
    · intro id b' hb'
      obtain ⟨h1, h2⟩ := h.bridge id b' hb'
      refine ⟨h1, fun p hp => ?_⟩
      have hp : Map.get? (a.peers.erase d.id) id = some p := hp
      rw [get?_erase] at hp
      split at hp
      · cases hp
      · exact h2 p hp
    · intro id hid
      have hid : (Map.get? (a.kinds.erase d.id) id).isSome = true := hid
      rw [get?_erase] at hid
      split at hid
      · cases hid
      · next hne =>
        have := h.held id hid
        unfold Quic.held at this
        rw [entries_some hl, List.map_append, List.append_assoc] at this
        show id ∈ (a.waiting ++ []).map QDial.id ++ a.bridges.keys
        rw [List.append_nil]
        rcases List.mem_append.1 this with hm | hm
        · exact List.mem_append_left _ hm
        · rcases List.mem_append.1 hm with hm | hm
          · rw [List.map_cons, List.map_nil, List.mem_singleton] at hm
            exact absurd hm.symm hne
          · exact List.mem_append_right _ hm
  | dialLost now peer ch hd hn =>
    obtain ⟨e, he, _⟩ := dial_found hi.table hd
    rw [hn] at he
    cases he
  | mint d now ch sid e t st hl hd he hc ht' hst =>
    obtain ⟨h1, _, i, h3, h4⟩ := minted_facts hst
    have hdm : d ∈ a.entries := by rw [entries_some hl]; simp
    have hpeer : st.peer = d.peer := by rw [h4]; exact (hi.agree d hdm i h3).1
    generalize hs' : ((({ a with pool := { (a.pool.dial Q X.caps now d.peer).1 with table := t } } : Quic I Q).callEp cfg env
        (some d.id) (.dialSucceeded d.id now)).1.mintDialled cfg X st ch sid) = s'
    have e1 : s'.limbo = none := by rw [← hs']; rfl
    have e2 : s'.waiting = a.waiting := by rw [← hs']; rfl
    have e3 := entries_drop (s' := s') hl e1 e2
    have hb' : ∃ b0, b0.stream = st ∧ s'.bridges = a.bridges.insert st.id b0 := by
      rw [← hs']; exact ⟨_, rfl, rfl⟩
    obtain ⟨b0, hb0, hb'⟩ := hb'
    have k1 : s'.kinds = a.kinds := by rw [← hs']; rfl
    have k2 : s'.peers = a.peers := by rw [← hs']; rfl
    refine ⟨fun id => by rw [k1, k2]; exact h.sync id, ?_, ?_, ?_⟩
    · intro x hx k hk'
      rw [k1] at hk'
      rw [k2]
      exact h.entry x (by rw [e3]; exact List.mem_append_left _ hx) k hk'
    · intro id b' hb
      rw [hb', get?_insert] at hb
      rw [k2]
      split at hb
      · next e =>
        subst e
        injection hb with hb
        subst hb
        rw [hb0]
        refine ⟨rfl, fun p hp => ?_⟩
        rw [h1] at hp
        have hs := h.sync d.id
        rw [hp] at hs
        cases hkk : a.kinds.get? d.id with
        | none => rw [hkk] at hs; cases hs
        | some k =>
          have := (h.entry d hdm k hkk).2
          rw [hp] at this
          injection this with this
          rw [hpeer, this]
      · exact h.bridge id b' hb
    · intro id hid
      rw [k1] at hid
      have := h.held id hid
      unfold Quic.held at this ⊢
      rw [e3, List.map_append, List.append_assoc] at this
      rw [hb']
      rcases List.mem_append.1 this with hm | hm
      · exact List.mem_append_left _ hm
      · refine List.mem_append_right _ ?_
        rw [keys_new (by rw [h1]; exact hi.apart hdm), h1]
        rcases List.mem_append.1 hm with hm | hm
        · exact List.mem_append_right _ hm
        · exact List.mem_append_left _ hm
  | accept ch sid now e st hh hd he hc hst =>
    obtain ⟨h1, _, _, _, _⟩ := accepted_facts hst
    have hf : st.id ∉ a.held := by rw [h1]; exact hi.fresh
    have hu := unheld_kind h hf
    refine ⟨h.sync, h.entry, ?_, ?_⟩
    · intro id b' hb
      obtain ⟨b0, hb0, hbr⟩ : ∃ b0, b0.stream = st ∧
        ((a.callEp cfg env none (.acceptStream e.peer now)).1.openBridge cfg X st ch sid false).bridges = a.bridges.insert st.id b0 := ⟨_, rfl, rfl⟩
      rw [hbr, get?_insert] at hb
      split at hb
      · next e =>
        subst e
        injection hb with hb
        subst hb
        refine ⟨by rw [hb0], fun p hp => ?_⟩
        have hp : a.peers.get? st.id = some p := hp
        rw [hu.2] at hp
        cases hp
      · exact h.bridge id b' hb
    · intro id hid
      have := h.held id hid
      unfold Quic.held at this
      show id ∈ a.entries.map QDial.id ++ Map.keys (a.bridges.insert st.id _)
      rw [keys_new (fun hm => hf (List.mem_append_right _ hm))]
      rcases List.mem_append.1 this with hm | hm
      · exact List.mem_append_left _ hm
      · exact List.mem_append_right _ (List.mem_append_left _ hm)
  | launch op id peer deadline kind hh hl hs _ =>
    obtain ⟨h1, _⟩ := started_facts hs
    have hf : id ∉ a.held := by rw [h1]; exact hi.fresh
    rw [launch_eq]
    have hent : ∀ x, x ∈ (a.dials ++ flat a.parked ++ [({ id, peer, deadline, wake := deadline, attempted := true, kind } : QDial A)] ++ a.limbo.toList) →
        x = { id, peer, deadline, wake := deadline, attempted := true, kind } ∨ x ∈ a.entries := by
      intro x hx
      unfold entries waiting
      rw [hh, hl, List.append_nil] 
      rw [hl] at hx
      rcases List.mem_append.1 hx with hx | hx
      · rcases List.mem_append.1 hx with hx | hx
        · exact .inr (List.mem_append_left _ hx)
        · exact .inl (List.mem_singleton.1 hx)
      · cases hx
    refine ⟨?_, ?_, ?_, ?_⟩
    · intro x
      show (Map.get? (a.kinds.insert id kind) x).isSome = (Map.get? (a.peers.insert id peer) x).isSome
      rw [get?_insert, get?_insert]
      split
      · rfl
      · exact h.sync x
    · intro x hx k hk'
      have hk' : Map.get? (a.kinds.insert id kind) x.id = some k := hk'
      show k = x.kind ∧ Map.get? (a.peers.insert id peer) x.id = some x.peer
      rcases hent x hx with rfl | hx
      · rw [get?_insert_self] at hk' ⊢
        injection hk' with hk'
        exact ⟨hk'.symm, rfl⟩
      · have hne : x.id ≠ id := fun e => hf (e ▸ entry_held hx)
        rw [get?_insert, if_neg (Ne.symm hne)] at hk' ⊢
        exact h.entry x hx k hk'
    · intro x b' hb
      obtain ⟨h2, h3⟩ := h.bridge x b' hb
      refine ⟨h2, fun p hp => ?_⟩
      have hp : Map.get? (a.peers.insert id peer) x = some p := hp
      have hne : x ≠ id := fun e => hf (e ▸ List.mem_append_right _ (mem_keys.2 ⟨b', mem_of_get? hb⟩))
      rw [get?_insert, if_neg (Ne.symm hne)] at hp
      exact h3 p hp
    · intro x hx
      have hx : (Map.get? (a.kinds.insert id kind) x).isSome = true := hx
      show x ∈ (a.dials ++ flat a.parked ++ [_] ++ a.limbo.toList).map QDial.id ++ a.bridges.keys
      rw [get?_insert] at hx
      split at hx
      · next e =>
        subst e
        refine List.mem_append_left _ (List.mem_map.2 ⟨_, List.mem_append_left _ (List.mem_append_right _ (List.mem_singleton.2 rfl)), rfl⟩)
      · have := h.held x hx
        unfold Quic.held entries waiting at this
        rw [hh, List.append_nil] at this
        rcases List.mem_append.1 this with hm | hm
        · refine List.mem_append_left _ ?_
          obtain ⟨d, hd, rfl⟩ := List.mem_map.1 hm
          refine List.mem_map_of_mem ?_
          rcases List.mem_append.1 hd with hd | hd
          · exact List.mem_append_left _ (List.mem_append_left _ hd)
          · exact List.mem_append_right _ hd
        · exact List.mem_append_right _ hm
  | reap id ch b lost hb hbt _ hl =>
    have hap := reapBridge_apart (cfg := cfg) (env := env) a id b ch lost
    obtain ⟨r1, r2, r3, r4, r5, r6, _⟩ := preReap_rest (X := X) a id b ch lost
    have hent : (a.reapBridge cfg env id b ch lost).entries = a.entries := by
      unfold entries waiting
      rw [hap.dials, hap.parked, hap.hand, hap.limbo]
    have hbr : (a.reapBridge cfg env id b ch lost).bridges = (a.preReap id b ch lost).bridges := by
      rw [reapBridge_pre]
      rcases complete_cases (cfg := cfg) (env := env) (a.preReap id b ch lost) id (!b.isFailed) with ⟨_, h2⟩ | ⟨k, _, _, h2⟩ | ⟨k, p, _, _, h2⟩ <;> rw [h2]
    have herase : ∀ {V : Type} (m : Map Nat V), m.get? id = none → m.erase id = m := by
      intro V m hm
      exact erase_absent hm
    have hkp : (a.reapBridge cfg env id b ch lost).kinds = a.kinds.erase id ∧ (a.reapBridge cfg env id b ch lost).peers = a.peers.erase id := by
      rw [reapBridge_pre]
      rcases complete_cases (cfg := cfg) (env := env) (a.preReap id b ch lost) id (!b.isFailed) with ⟨h1, h2⟩ | ⟨k, h1, h1', h2⟩ | ⟨k, p, _, _, h2⟩ <;> rw [h2]
      · rw [r1] at h1 ⊢
        rw [r2]
        have := h.sync id
        rw [h1] at this
        refine ⟨(herase _ h1).symm, (herase _ ?_).symm⟩
        cases hp : a.peers.get? id with
        | none => rfl
        | some p => rw [hp] at this; cases this
      · exfalso
        rw [r1] at h1
        rw [r2] at h1'
        have := h.sync id
        rw [h1, h1'] at this
        cases this
      · exact ⟨by show Map.erase (a.preReap id b ch lost).kinds id = _; rw [r1], by show Map.erase (a.preReap id b ch lost).peers id = _; rw [r2]⟩
    refine ⟨?_, ?_, ?_, ?_⟩
    · intro x
      rw [hkp.1, hkp.2, get?_erase, get?_erase]
      split
      · rfl
      · exact h.sync x
    · intro x hx k hk'
      rw [hent] at hx
      have hne : x.id ≠ id := fun e => hi.apart hx (e ▸ mem_keys.2 ⟨b, mem_of_get? hb⟩)
      rw [hkp.1, get?_erase, if_neg (Ne.symm hne)] at hk'
      rw [hkp.2, get?_erase, if_neg (Ne.symm hne)]
      exact h.entry x hx k hk'
    · intro x b' hb'
      rw [hbr] at hb'
      obtain ⟨k, hk'⟩ := r6 x
      rw [hk', get?_erase] at hb'
      rw [hkp.2, get?_erase]
      split at hb'
      · cases hb'
      · next hne =>
        rw [if_neg hne]
        cases hbx : a.bridges.get? x with
        | none => rw [hbx] at hb'; cases hb'
        | some b2 =>
          rw [hbx] at hb'
          injection hb' with hb'
          subst hb'
          exact h.bridge x b2 hbx
    · intro x hx
      rw [hkp.1, get?_erase] at hx
      split at hx
      · cases hx
      · next hne =>
        have := h.held x hx
        unfold Quic.held at this ⊢
        rw [hent, hbr, r5]
        rcases List.mem_append.1 this with hm | hm
        · exact List.mem_append_left _ hm
        · refine List.mem_append_right _ ?_
          rw [keys_erase]
          exact List.mem_filter.2 ⟨hm, by simpa using Ne.symm hne⟩
  | _ => exact h.quiet rfl rfl (.refl _) rfl

/-! ### Reports -/

/-- What became of an exchange of kind `k` with `p`: it is held, it was reported, or it was a reliable ping whose dial
failed. -/
def Fate (s : Quic I Q) (id : Nat) (p : A) (k : ExKind) : Prop :=
  (s.kinds.get? id = some k ∧ s.peers.get? id = some p) ∨
  (∃ ok, (some id, Ep.Op.external (some ⟨id, p, ok, k⟩)) ∈ s.calls) ∨
  (k = .reliablePing ∧ (some id, Ep.Op.dialFailed id) ∈ s.calls)

theorem Fate.same {s s' : Quic I Q} {id : Nat} {p : A} {k : ExKind} (h : Fate s id p k) (hk : s'.kinds = s.kinds)
    (hp : s'.peers = s.peers) (l : List (Option Nat × Ep.Op I A)) (hc : s'.calls = s.calls ++ l) : Fate s' id p k := by
  rcases h with ⟨h1, h2⟩ | ⟨ok, h⟩ | ⟨h1, h⟩
  · exact .inl ⟨by rw [hk]; exact h1, by rw [hp]; exact h2⟩
  · exact .inr (.inl ⟨ok, by rw [hc]; exact List.mem_append_left _ h⟩)
  · exact .inr (.inr ⟨h1, by rw [hc]; exact List.mem_append_left _ h⟩)

/-- Everything known of an exchange changed only for another one. -/
theorem Fate.other {s s' : Quic I Q} {id : Nat} {p : A} {k : ExKind} (h : Fate s id p k)
    (hk : s.kinds.get? id = some k → s.peers.get? id = some p → Fate s' id p k)
    (l : List (Option Nat × Ep.Op I A)) (hc : s'.calls = s.calls ++ l) : Fate s' id p k := by
  rcases h with ⟨h1, h2⟩ | ⟨ok, h⟩ | ⟨h1, h⟩
  · exact hk h1 h2
  · exact .inr (.inl ⟨ok, by rw [hc]; exact List.mem_append_left _ h⟩)
  · exact .inr (.inr ⟨h1, by rw [hc]; exact List.mem_append_left _ h⟩)

theorem Fate.move {a b : Quic I Q} (hh : HeldInv a) (hi : IdsInv cfg env X [] a) (hm : Move cfg env X T a b)
    {id : Nat} {p : A} {k : ExKind} (h : Fate a id p k) : Fate b id p k := by
  cases hm with
  | push src bytes => unfold pushIngress; split <;> exact h.same rfl rfl [] (List.append_nil _).symm
  | call x op hp => exact h.same rfl rfl [(x, op)] rfl
  | noop x op he hx hpay => exact h.same rfl rfl [(x, op)] rfl
  | commit now hb hev _ _ => exact h.same rfl rfl [_] rfl
  | sieve _ => unfold takeDials; rw [sieve_eq]; exact h.same rfl rfl [_] rfl
  | pollDial x peer deadline hp => unfold setTimer; rw [queueDial_eq]; exact h.same rfl rfl [_] rfl
  | pollOther hp => exact h.same rfl rfl [_] rfl
  | takeEntry d rest _ _ => rw [takeEntry_eq]; exact h.same rfl rfl [] (List.append_nil _).symm
  | repark d now hl =>
    obtain ⟨w2, hw2⟩ := repark_eq (X := X) a d now
    exact h.same (by rw [hw2]) (by rw [hw2]) [] (by rw [hw2]; exact (List.append_nil _).symm)
  | retire d hl =>
    rw [retire_eq]
    refine h.other (fun h1 h2 => ?_) (a.lastWords d.id) rfl
    by_cases he : id = d.id
    · subst he
      cases k with
      | reliablePing =>
        refine .inr (.inr ⟨rfl, ?_⟩)
        refine List.mem_append_right _ ?_
        unfold lastWords
        rw [h1]; simp
      | pushPull =>
        refine .inr (.inl ⟨false, List.mem_append_right _ ?_⟩)
        unfold lastWords
        rw [h1, h2]; simp
      | userMessage =>
        refine .inr (.inl ⟨false, List.mem_append_right _ ?_⟩)
        unfold lastWords
        rw [h1, h2]; simp
    · refine .inl ⟨?_, ?_⟩
      · show Map.get? (a.kinds.erase d.id) id = _
        rw [get?_erase, if_neg (Ne.symm he)]; exact h1
      · show Map.get? (a.peers.erase d.id) id = _
        rw [get?_erase, if_neg (Ne.symm he)]; exact h2
  | mint d now ch sid e t st hl hd he hc ht' hst => exact h.same rfl rfl [_] rfl
  | accept ch sid now e st _ hd he hc hst => exact h.same rfl rfl [_] rfl
  | launch op x peer deadline kind hh' hl hs _ =>
    obtain ⟨h1, _⟩ := started_facts hs
    have hf : x ∉ a.held := by rw [h1]; exact hi.fresh
    rw [launch_eq]
    refine h.other (fun g1 g2 => ?_) [(none, op)] rfl
    have hne : id ≠ x := by
      rintro rfl
      rw [(unheld_kind hh hf).1] at g1; cases g1
    refine .inl ⟨?_, ?_⟩
    · show Map.get? (a.kinds.insert x kind) id = _
      rw [get?_insert, if_neg (Ne.symm hne)]; exact g1
    · show Map.get? (a.peers.insert x peer) id = _
      rw [get?_insert, if_neg (Ne.symm hne)]; exact g2
  | inert peer kind now hn => exact h.same rfl rfl [_, _] (List.append_assoc _ _ _)
  | burn pid peer seq deadline hn => exact h.same rfl rfl [_] rfl
  | reap x ch b lost hb hbt _ hl =>
    obtain ⟨r1, r2, r3, r4, r5, r6, _⟩ := preReap_rest (X := X) a x b ch lost
    rw [reapBridge_pre]
    rcases complete_cases (cfg := cfg) (env := env) (a.preReap x b ch lost) x (!b.isFailed) with ⟨g1, g2⟩ | ⟨k', g1, g1', g2⟩ | ⟨k', p', g1, g1', g2⟩
    · rw [g2]; exact h.same r1 r2 [] (by rw [r4, List.append_nil])
    · exfalso
      rw [r1] at g1
      rw [r2] at g1'
      have := hh.sync x
      rw [g1, g1'] at this
      cases this
    · rw [g2]
      refine h.other (fun h1 h2 => ?_) [(some x, .external (some ⟨x, p', !b.isFailed, k'⟩))] (by show (a.preReap x b ch lost).calls ++ _ = _; rw [r4])
      by_cases he : id = x
      · subst he
        rw [r1, h1] at g1
        rw [r2, h2] at g1'
        injection g1 with g1
        injection g1' with g1'
        subst g1 g1'
        exact .inr (.inl ⟨!b.isFailed, List.mem_append_right _ (List.mem_singleton.2 rfl)⟩)
      · refine .inl ⟨?_, ?_⟩
        · show Map.get? (Map.erase (a.preReap x b ch lost).kinds x) id = _
          rw [r1, get?_erase, if_neg (Ne.symm he)]; exact h1
        · show Map.get? (Map.erase (a.preReap x b ch lost).peers x) id = _
          rw [r2, get?_erase, if_neg (Ne.symm he)]; exact h2
  | _ => exact h.same rfl rfl [] (List.append_nil _).symm

/-- Every report is made for its own exchange. -/
def Signed (s : Quic I Q) : Prop :=
  ∀ c ∈ s.calls, ∀ r, c.2 = Ep.Op.external r → ∃ r', r = some r' ∧ c.1 = some r'.exchange

theorem Signed.more {s s' : Quic I Q} (h : Signed s) (l : List (Option Nat × Ep.Op I A)) (hc : s'.calls = s.calls ++ l)
    (hl : ∀ c ∈ l, ∀ r, c.2 = Ep.Op.external r → ∃ r', r = some r' ∧ c.1 = some r'.exchange) : Signed s' := by
  intro c hm r hr
  rw [hc] at hm
  rcases List.mem_append.1 hm with hm | hm
  · exact h c hm r hr
  · exact hl c hm r hr

theorem Signed.call {s s' : Quic I Q} (h : Signed s) (x : Option Nat) (op : Ep.Op I A) (hc : s'.calls = s.calls ++ [(x, op)])
    (hop : ∀ r, op ≠ .external r) : Signed s' :=
  h.more _ hc (by intro c hm r hr; rw [List.mem_singleton] at hm; subst hm; exact absurd hr (hop r))

theorem Signed.still {s s' : Quic I Q} (h : Signed s) (hc : s'.calls = s.calls) : Signed s' := by
  unfold Signed; rw [hc]; exact h

theorem Signed.move {a b : Quic I Q} (h : Signed a) (hm : Move cfg env X T a b) : Signed b := by
  cases hm with
  | push src bytes => unfold pushIngress; split <;> exact h.still rfl
  | call x op hp => exact h.call x op rfl (by rintro r rfl; exact hp)
  | noop x op he hx hpay => exact h.call x op rfl hx
  | commit now hb hev _ _ => exact h.call _ _ rfl (by simp)
  | sieve _ => unfold takeDials; rw [sieve_eq]; exact h.call _ _ rfl (by simp)
  | pollDial x peer deadline hp => unfold setTimer; rw [queueDial_eq]; exact h.call _ _ rfl (by simp)
  | pollOther hp => exact h.call _ _ rfl (by simp)
  | takeEntry d rest _ _ => rw [takeEntry_eq]; exact h.still rfl
  | repark d now hl =>
    obtain ⟨w2, hw2⟩ := repark_eq (X := X) a d now
    exact h.still (by rw [hw2])
  | retire d hl =>
    rw [retire_eq]
    refine h.more (a.lastWords d.id) rfl ?_
    intro c hc r hr
    unfold lastWords at hc
    rcases List.mem_append.1 hc with hc | hc
    · split at hc
      · cases hc
      · rw [List.mem_singleton] at hc; subst hc
        injection hr with hr
        exact ⟨_, hr.symm, rfl⟩
      · cases hc
    · rw [List.mem_singleton] at hc; subst hc; cases hr
  | mint d now ch sid e t st hl hd he hc ht' hst => exact h.call _ _ rfl (by simp)
  | accept ch sid now e st _ hd he hc hst => exact h.call _ _ rfl (by simp)
  | launch op x peer deadline kind hh' hl hs _ =>
    rw [launch_eq]
    refine h.call _ op rfl ?_
    cases hs <;> simp
  | inert peer kind now hn =>
    refine h.more [_, _] (List.append_assoc _ _ _) ?_
    intro c hc r hr
    rcases List.mem_cons.1 hc with rfl | hc
    · cases hr
    · rw [List.mem_singleton] at hc; subst hc
      injection hr with hr
      exact ⟨_, hr.symm, rfl⟩
  | burn pid peer seq deadline hn => exact h.call _ _ rfl (by simp)
  | reap x ch b lost hb hbt _ hl =>
    obtain ⟨r1, r2, r3, r4, r5, r6, _⟩ := preReap_rest (X := X) a x b ch lost
    rw [reapBridge_pre]
    rcases complete_cases (cfg := cfg) (env := env) (a.preReap x b ch lost) x (!b.isFailed) with ⟨g1, g2⟩ | ⟨k', g1, g1', g2⟩ | ⟨k', p', g1, g1', g2⟩
    · rw [g2]; exact h.still r4
    · rw [g2]; exact h.still r4
    · rw [g2]
      refine h.more [(some x, .external (some ⟨x, p', !b.isFailed, k'⟩))] (by show (a.preReap x b ch lost).calls ++ _ = _; rw [r4]) ?_
      intro c hc r hr
      rw [List.mem_singleton] at hc; subst hc
      injection hr with hr
      exact ⟨_, hr.symm, rfl⟩
  | _ => exact h.still rfl

end Verif.Quic
