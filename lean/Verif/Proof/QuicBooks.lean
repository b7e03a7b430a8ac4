import Verif.Proof.QuicEqs
/-
The queue of received packets and the books on waiting dials.
-/
namespace Verif.Quic
open Verif Map QBridge
variable {I A : Type} [DecidableEq I] [DecidableEq A] {Q : Quinn A}
variable {cfg : Cfg I A} {env : Env I A} {X : QCfg} {T : TEnv}

/-- A map of counts that stores no zero counts something. -/
structure Counted (m : Map A Nat) (f : A → Nat) : Prop where
  nodup : m.NodupKeys
  pos : ∀ p n, m.get? p = some n → 0 < n
  exact : ∀ p, ConnTable.count m p = f p

omit [DecidableEq I] in
theorem Counted.up {m : Map A Nat} {f : A → Nat} (h : Counted m f) (p : A) {g : A → Nat}
    (hg : ∀ q, g q = f q + if p = q then 1 else 0) : Counted (bump m p) g := by
  refine ⟨nodup_insert h.nodup _ _, ?_, ?_⟩
  · intro q n hq
    unfold bump at hq
    rw [get?_insert] at hq
    split at hq
    · injection hq with hq; omega
    · exact h.pos q n hq
  · intro q
    unfold bump
    rw [count_insert, hg, ← h.exact]
    split
    · next hq => subst hq; rfl
    · rfl

omit [DecidableEq I] in
theorem Counted.down {m : Map A Nat} {f : A → Nat} (h : Counted m f) (p : A) {g : A → Nat}
    (hg : ∀ q, g q + (if p = q then 1 else 0) = f q) : Counted (ConnTable.release m p) g := by
  have hp : ∃ n, m.get? p = some n := by
    have h1 := h.exact p
    have h2 := hg p
    rw [if_pos rfl] at h2
    unfold ConnTable.count at h1
    cases hm : m.get? p with
    | some n => exact ⟨n, rfl⟩
    | none => rw [hm] at h1; simp only at h1; omega
  obtain ⟨a, b, c⟩ := pending_release h.nodup p hp h.pos
  refine ⟨a, b, fun q => ?_⟩
  have := c q
  rw [h.exact, ← hg q] at this
  omega

omit [DecidableEq I] in
theorem Counted.congr {m : Map A Nat} {f g : A → Nat} (h : Counted m f) (hg : ∀ q, g q = f q) : Counted m g :=
  ⟨h.nodup, h.pos, fun p => (h.exact p).trans (hg p).symm⟩

omit [DecidableEq I] in
theorem Counted.nil {f : A → Nat} (h : ∀ p, f p = 0) : Counted ([] : Map A Nat) f :=
  ⟨nodup_nil, by simp, fun p => by rw [h p]; rfl⟩

/-! ### Received packets -/

/-- How many packets of a source wait. -/
def pendingOf (l : List (A × Bytes)) (p : A) : Nat := l.countP (fun e => e.1 = p)

structure RingInv (s : Quic I Q) : Prop where
  counted : Counted s.perPeer (pendingOf s.ingress)
  capP : ∀ p, pendingOf s.ingress p ≤ Q_INGRESS_PEER
  cap : s.ingress.length ≤ Q_INGRESS

theorem RingInv.same {s s' : Quic I Q} (h : RingInv s) (h1 : s'.ingress = s.ingress) (h2 : s'.perPeer = s.perPeer) :
    RingInv s' := by
  refine ⟨?_, ?_, ?_⟩
  · rw [h1, h2]; exact h.counted
  · rw [h1]; exact h.capP
  · rw [h1]; exact h.cap

theorem RingInv.push {s : Quic I Q} (h : RingInv s) (src : A) (bytes : Bytes) : RingInv (s.pushIngress src bytes) := by
  unfold pushIngress
  split
  · exact h.same rfl rfl
  · next hc =>
    simp only [not_or, Nat.not_le] at hc
    have hp : ∀ q, pendingOf (s.ingress ++ [(src, bytes)]) q = pendingOf s.ingress q + if src = q then 1 else 0 := by
      intro q
      unfold pendingOf
      rw [List.countP_append, List.countP_singleton]
      simp
    refine ⟨h.counted.up src hp, ?_, ?_⟩
    · intro q
      show pendingOf (s.ingress ++ [(src, bytes)]) q ≤ _
      rw [hp]
      split
      · next hq => subst hq; rw [← h.counted.exact]; exact hc.1
      · exact h.capP q
    · show (s.ingress ++ [(src, bytes)]).length ≤ _
      rw [List.length_append]; exact hc.2

theorem RingInv.pull {s : Quic I Q} (h : RingInv s) : RingInv s.pollIngress.1 := by
  unfold pollIngress
  split
  · exact h
  · next e rest he =>
    have hp : ∀ q, pendingOf rest q + (if e.1 = q then 1 else 0) = pendingOf s.ingress q := by
      intro q
      unfold pendingOf
      rw [he, List.countP_cons]
      simp
    refine ⟨h.counted.down e.1 hp, ?_, ?_⟩
    · intro q
      have := h.capP q
      rw [← hp q] at this
      exact Nat.le_trans (Nat.le_add_right _ _) this
    · have := h.cap
      rw [he, List.length_cons] at this
      exact Nat.le_trans (Nat.le_succ _) this

theorem RingInv.move {a b : Quic I Q} (h : RingInv a) (hm : Move cfg env X T a b) : RingInv b := by
  cases hm with
  | push src bytes => exact h.push src bytes
  | sieve _ => unfold takeDials; rw [sieve_eq]; exact h.same rfl rfl
  | pollDial id peer deadline _ => unfold setTimer; rw [queueDial_eq]; exact h.same rfl rfl
  | takeEntry d rest _ _ => rw [takeEntry_eq]; exact h.same rfl rfl
  | repark d now _ => obtain ⟨w, hw⟩ := repark_eq (X := X) a d now; rw [hw]; exact h.same rfl rfl
  | retire d _ => rw [retire_eq]; exact h.same rfl rfl
  | launch op id peer deadline kind _ _ _ _ => rw [launch_eq]; exact h.same rfl rfl
  | reap id ch b lost _ _ _ _ =>
    have := reapBridge_apart (cfg := cfg) (env := env) a id b ch lost
    exact h.same this.ingress this.perPeer
  | _ => exact h.same rfl rfl

/-! ### Waiting dials -/

/-- Every entry in a table of buckets. -/
def flat (m : Map A (List (QDial A))) : List (QDial A) := m.flatMap (·.2)

/-- Every dial that waits. -/
def waiting (s : Quic I Q) : List (QDial A) := s.dials ++ flat s.parked ++ s.hand

/-- The user messages to a peer among them. -/
def userTo (l : List (QDial A)) (p : A) : Nat := l.countP (fun d => d.kind = .userMessage ∧ d.peer = p)

/-- Those not tried yet. -/
def untried (l : List (QDial A)) : Nat := l.countP (fun d => !d.attempted)

structure BooksInv (s : Quic I Q) : Prop where
  backlog : Counted s.backlog (userTo s.waiting)
  un : s.unattempted = untried s.waiting
  np : s.parked.NodupKeys
  pp : ∀ p l, s.parked.get? p = some l → ∀ d ∈ l, d.peer = p ∧ d.attempted = true

omit [DecidableEq I] in
theorem flat_erase {m : Map A (List (QDial A))} (hn : m.NodupKeys) {p : A} {l : List (QDial A)} (h : m.get? p = some l) :
    (flat m).Perm (l ++ flat (m.erase p)) := by
  induction m with
  | nil => cases h
  | cons e m ih =>
    obtain ⟨k, v⟩ := e
    rw [get?_cons] at h
    obtain ⟨hk', hn'⟩ := Map.nodup_cons.1 hn
    by_cases hk : k = p
    · rw [if_pos hk] at h
      injection h with h
      subst hk h
      have he : Map.erase ((k, v) :: m) k = m := by
        have : Map.erase m k = m := by
          unfold Map.erase
          rw [List.filter_eq_self]
          intro x hx
          simp only [ne_eq, decide_not, Bool.not_eq_eq_eq_not, Bool.not_true, decide_eq_false_iff_not]
          rintro rfl
          exact hk' x.2 hx
        unfold Map.erase at this ⊢
        rw [List.filter_cons_of_neg (by simp), this]
      rw [he]
      exact .refl _
    · rw [if_neg hk] at h
      have he : Map.erase ((k, v) :: m) p = (k, v) :: Map.erase m p := by
        unfold Map.erase
        rw [List.filter_cons_of_pos (by simpa using hk)]
      rw [he]
      show (v ++ flat m).Perm (l ++ (v ++ flat (Map.erase m p)))
      refine ((ih hn' h).append_left v).trans ?_
      rw [← List.append_assoc, ← List.append_assoc]
      exact List.Perm.append_right _ List.perm_append_comm

omit [DecidableEq I] in
theorem flat_insert (m : Map A (List (QDial A))) (hn : m.NodupKeys) (p : A) (l : List (QDial A)) :
    (flat (m.insert p l)).Perm (l ++ flat (m.erase p)) := by
  have h := flat_erase (nodup_insert hn p l) (p := p) (l := l) (get?_insert_self m p l)
  rw [erase_insert] at h
  exact h

omit [DecidableEq I] in
theorem erase_absent {V : Type} {m : Map A V} {p : A} (h : m.get? p = none) : m.erase p = m := by
  unfold Map.erase
  rw [List.filter_eq_self]
  intro x hx
  have := get?_eq_none_iff.1 h
  simp only [ne_eq, decide_not, Bool.not_eq_eq_eq_not, Bool.not_true, decide_eq_false_iff_not]
  rintro rfl
  exact this (mem_keys.2 ⟨_, hx⟩)

/-- Taking every bucket, in any order, takes every entry once. -/
theorem taken_perm (s : Quic I Q) : (s.takeParked T).hand.Perm (flat s.parked) := by
  have h := (T.order_perm s.tick (List.range s.parked.length)).flatMap_right (fun i => match s.parked[i]? with
      | some e => e.2
      | none => [])
  refine h.trans ?_
  have : ∀ m : Map A (List (QDial A)), (List.range m.length).flatMap (fun i => match m[i]? with
      | some e => e.2
      | none => []) = flat m := by
    intro m
    induction m with
    | nil => rfl
    | cons e m ih =>
      rw [List.length_cons, List.range_succ_eq_map, List.flatMap_cons, List.flatMap_map]
      show e.2 ++ _ = e.2 ++ flat m
      rw [← ih]
      rfl
  rw [this]

/-- The same dials wait, up to their order. -/
theorem BooksInv.perm {s s' : Quic I Q} (h : BooksInv s) (hp : s'.waiting.Perm s.waiting) (h1 : s'.backlog = s.backlog)
    (h2 : s'.unattempted = s.unattempted) (h3 : s'.parked.NodupKeys)
    (h4 : ∀ p l, s'.parked.get? p = some l → ∀ d ∈ l, d.peer = p ∧ d.attempted = true) : BooksInv s' := by
  refine ⟨?_, ?_, h3, h4⟩
  · rw [h1]; exact h.backlog.congr (fun q => hp.countP_eq _)
  · rw [h2, h.un]; exact (hp.countP_eq _).symm

theorem BooksInv.same {s s' : Quic I Q} (h : BooksInv s) (h1 : s'.dials = s.dials) (h2 : s'.parked = s.parked)
    (h3 : s'.hand = s.hand) (h4 : s'.backlog = s.backlog) (h5 : s'.unattempted = s.unattempted) : BooksInv s' := by
  refine h.perm ?_ h4 h5 (by rw [h2]; exact h.np) (by rw [h2]; exact h.pp)
  unfold waiting
  rw [h1, h2, h3]

omit [DecidableEq I] in
theorem bumps_counted (l w : List (QDial A)) : ∀ {m : Map A Nat}, Counted m (userTo w) → Counted (bumps m l) (userTo (l ++ w)) := by
  induction l generalizing w with
  | nil => intro m h; exact h
  | cons d l ih =>
    intro m h
    have h1 : Counted (if d.kind = .userMessage then bump m d.peer else m) (userTo (d :: w)) := by
      split
      · next hk =>
        refine h.up d.peer (fun q => ?_)
        unfold userTo
        rw [List.countP_cons]
        simp [hk]
      · next hk =>
        refine h.congr (fun q => ?_)
        unfold userTo
        rw [List.countP_cons]
        simp [hk]
    have h2 := ih _ h1
    refine h2.congr (fun q => ?_)
    exact (List.perm_middle (a := d) (l₁ := l) (l₂ := w)).symm.countP_eq _

/-- More dials wait. -/
theorem BooksInv.more {s s' : Quic I Q} (h : BooksInv s) (l : List (QDial A)) (hp : s'.waiting.Perm (l ++ s.waiting))
    (h1 : s'.backlog = bumps s.backlog l) (h2 : s'.unattempted = s.unattempted + untried l) (h3 : s'.parked.NodupKeys)
    (h4 : ∀ p l, s'.parked.get? p = some l → ∀ d ∈ l, d.peer = p ∧ d.attempted = true) : BooksInv s' := by
  refine ⟨?_, ?_, h3, h4⟩
  · rw [h1]
    exact (bumps_counted l _ h.backlog).congr (fun q => hp.countP_eq _)
  · rw [h2, h.un, Nat.add_comm]
    unfold untried
    rw [hp.countP_eq, List.countP_append]

theorem BooksInv.take {s : Quic I Q} (h : BooksInv s) (d : QDial A) (rest : List (QDial A)) (hh : s.hand = d :: rest) :
    BooksInv (s.takeEntry d) := by
  rw [takeEntry_eq]
  have hp : s.waiting.Perm (d :: (s.dials ++ flat s.parked ++ rest)) := by
    unfold waiting
    rw [hh]
    exact List.perm_middle
  refine ⟨?_, ?_, h.np, h.pp⟩
  · show Counted (if d.kind = .userMessage then _ else _) (userTo (s.dials ++ flat s.parked ++ s.hand.tail))
    rw [hh, List.tail_cons]
    split
    · next hk =>
      refine h.backlog.down d.peer (fun q => ?_)
      unfold userTo
      rw [hp.countP_eq, List.countP_cons]
      simp [hk]
    · next hk =>
      refine h.backlog.congr (fun q => ?_)
      unfold userTo
      rw [hp.countP_eq, List.countP_cons]
      simp [hk]
  · show (if d.attempted then s.unattempted else s.unattempted - 1) = untried (s.dials ++ flat s.parked ++ s.hand.tail)
    rw [hh, List.tail_cons]
    have h1 := h.un
    unfold untried at h1 ⊢
    rw [hp.countP_eq, List.countP_cons] at h1
    split
    · next ha => rw [h1]; simp [ha]
    · next ha => rw [h1]; simp [ha]

theorem BooksInv.parked_insert {s : Quic I Q} (h : BooksInv s) {p : A} {l' : List (QDial A)}
    (hl : ∀ d ∈ l', d.peer = p ∧ d.attempted = true) :
    (s.parked.insert p l').NodupKeys ∧
    ∀ q l, (s.parked.insert p l').get? q = some l → ∀ d ∈ l, d.peer = q ∧ d.attempted = true := by
  refine ⟨nodup_insert h.np _ _, fun q l hq => ?_⟩
  rw [get?_insert] at hq
  split at hq
  · next he => injection hq with hq; subst he hq; exact hl
  · exact h.pp q l hq

theorem sieved_perm {α : Type} (d f p : List α) : ([] ++ p ++ (d ++ f)).Perm (f ++ (d ++ p ++ [])) := by
  rw [List.nil_append, List.append_nil, ← List.append_assoc]
  refine List.perm_append_comm.trans ?_
  exact (List.perm_append_comm.append_left f)

theorem BooksInv.move {a b : Quic I Q} (h : BooksInv a) (hm : Move cfg env X T a b) : BooksInv b := by
  cases hm with
  | push src bytes => unfold pushIngress; split <;> exact h.same rfl rfl rfl rfl rfl
  | sieve hh =>
    unfold takeDials
    rw [sieve_eq]
    refine h.more ((Coord.dialsOf a.ep.sieveDials.2).map (fromRequest a.ep)) ?_ rfl ?_ h.np h.pp
    · show ([] ++ flat a.parked ++ (a.dials ++ _)).Perm (_ ++ (a.dials ++ flat a.parked ++ a.hand))
      rw [hh]
      exact sieved_perm _ _ _
    · have : ∀ l : List (Nat × A × Nat), untried (l.map (fromRequest a.ep)) = l.length := by
        intro l
        unfold untried
        rw [List.countP_map, List.countP_eq_length.2]
        intro x _; rfl
      rw [this, List.length_map]
  | pollDial id peer deadline _ =>
    unfold setTimer
    rw [queueDial_eq]
    refine h.more [fromRequest (a.callEp cfg env none .pollEvent).1.ep (id, peer, deadline)] ?_ rfl rfl h.np h.pp
    show (a.dials ++ [_] ++ flat a.parked ++ a.hand).Perm ([_] ++ (a.dials ++ flat a.parked ++ a.hand))
    simp only [List.append_assoc]
    exact List.perm_append_comm_assoc ..
  | takeDials hh =>
    refine h.perm ?_ rfl rfl h.np h.pp
    unfold waiting takeDials
    dsimp only
    rw [hh, List.append_nil, List.nil_append]
    exact List.perm_append_comm
  | takeParked hh =>
    refine h.perm ?_ rfl rfl nodup_nil (by intro p l hl; cases hl)
    have := taken_perm (T := T) a
    show (a.dials ++ [] ++ (a.takeParked T).hand).Perm (a.dials ++ flat a.parked ++ a.hand)
    rw [hh, List.append_nil, List.append_nil]
    exact this.append_left _
  | popParked peer d rest hh hp =>
    have hl := h.parked_insert (p := peer) (l' := rest) (fun x hx => h.pp peer _ hp x (List.mem_cons_of_mem _ hx))
    refine h.perm ?_ rfl rfl hl.1 hl.2
    show (a.dials ++ flat (a.parked.insert peer rest) ++ [d]).Perm (a.dials ++ flat a.parked ++ a.hand)
    rw [hh, List.append_nil, List.append_assoc]
    refine List.Perm.append_left _ ?_
    refine ((flat_insert a.parked h.np peer rest).append_right _).trans ?_
    refine List.Perm.trans ?_ (flat_erase h.np hp).symm
    exact List.perm_append_comm
  | dropBucket peer hp =>
    refine h.perm ?_ rfl rfl (nodup_erase h.np _) ?_
    · show (a.dials ++ flat (a.parked.erase peer) ++ a.hand).Perm (a.dials ++ flat a.parked ++ a.hand)
      exact ((flat_erase h.np hp).symm.append_left _).append_right _
    · intro q l hq
      dsimp only at hq
      rw [get?_erase] at hq
      split at hq
      · cases hq
      · exact h.pp q l hq
  | takeEntry d rest hh _ => exact h.take d rest hh
  | repark d now _ =>
    obtain ⟨w, hw⟩ := repark_eq (X := X) a d now
    rw [hw]
    generalize hb : a.bucketOf d.peer = bucket
    unfold bucketOf at hb
    have hbp : ∀ x ∈ bucket, x.peer = d.peer ∧ x.attempted = true := by
      intro x hx
      cases hg : a.parked.get? d.peer with
      | none => rw [hg] at hb; subst hb; cases hx
      | some l => rw [hg] at hb; subst hb; exact h.pp _ _ hg x hx
    have hfl : (flat a.parked).Perm (bucket ++ flat (a.parked.erase d.peer)) := by
      cases hg : a.parked.get? d.peer with
      | none => rw [hg] at hb; subst hb; rw [erase_absent hg]; exact .refl _
      | some l => rw [hg] at hb; subst hb; exact flat_erase h.np hg
    generalize hn : (if d.kind = ExKind.reliablePing then
        { d with wake := w, attempted := true } :: bucket
        else bucket ++ [{ d with wake := w, attempted := true }]) = l'
    have hl' : l'.Perm ({ d with wake := w, attempted := true } :: bucket) := by
      subst hn
      split
      · exact .refl _
      · exact List.perm_append_comm
    have hl := h.parked_insert (p := d.peer) (l' := l') (by
      intro x hx
      rcases List.mem_cons.1 (hl'.mem_iff.1 hx) with rfl | hx
      · exact ⟨rfl, rfl⟩
      · exact hbp x hx)
    refine h.more [{ d with wake := w, attempted := true }] ?_ rfl rfl hl.1 hl.2
    show (a.dials ++ flat (a.parked.insert d.peer l') ++ a.hand).Perm ([{ d with wake := w, attempted := true }] ++ (a.dials ++ flat a.parked ++ a.hand))
    have h1 : (flat (a.parked.insert d.peer l')).Perm ({ d with wake := w, attempted := true } :: flat a.parked) := by
      refine (flat_insert a.parked h.np d.peer l').trans ((hl'.append_right _).trans ?_)
      exact (hfl.symm.cons _)
    refine ((h1.append_left _).append_right _).trans ?_
    rw [List.append_assoc, List.cons_append, List.append_assoc]
    exact List.perm_middle
  | launch op id peer deadline kind hh _ _ _ =>
    rw [launch_eq]
    refine h.more [{ id, peer, deadline, wake := deadline, attempted := true, kind }] ?_ rfl rfl h.np h.pp
    show (a.dials ++ flat a.parked ++ [_]).Perm ([_] ++ (a.dials ++ flat a.parked ++ a.hand))
    rw [hh, List.append_nil]
    exact List.perm_append_comm
  | retire d _ => rw [retire_eq]; exact h.same rfl rfl rfl rfl rfl
  | reap id ch b lost _ _ _ _ =>
    have := reapBridge_apart (cfg := cfg) (env := env) a id b ch lost
    exact h.same this.dials this.parked this.hand this.backlog this.unattempted
  | _ => exact h.same rfl rfl rfl rfl rfl

end Verif.Quic
