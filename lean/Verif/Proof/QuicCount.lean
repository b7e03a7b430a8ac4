import Verif.Proof.QuicPlace
/-
The counts of the QUIC node: streams accepted, and streams opened on every connection.
-/
namespace Verif.Quic
open Verif Map QBridge
variable {I A : Type} [DecidableEq I] [DecidableEq A] {Q : Quinn A}
variable {cfg : Cfg I A} {env : Env I A} {X : QCfg} {T : TEnv}

/-- What is counted of a bridge: its connection, whether it was dialled, and its exchange. -/
def mark (b : QBridge I A) : Nat × Bool × Nat := (b.ch, b.eager, b.stream.id)

def marks (m : Map Nat (QBridge I A)) : List (Nat × Bool × Nat) := m.map (fun e => mark e.2)

omit [DecidableEq I] [DecidableEq A] in
theorem marks_put {m : Map Nat (QBridge I A)} {id : Nat} {b b' : QBridge I A} (h : m.get? id = some b) (hb : mark b' = mark b) :
    marks (m.insert id b') = marks m := by
  induction m with
  | nil => cases h
  | cons e m ih =>
    obtain ⟨k, v⟩ := e
    rw [get?_cons] at h
    unfold Map.insert
    split
    · next hk =>
      rw [if_pos hk] at h
      injection h with h
      subst h
      unfold marks
      rw [List.map_cons, List.map_cons, hb]
    · next hk =>
      rw [if_neg hk] at h
      have := ih h
      unfold marks at this ⊢
      rw [List.map_cons, List.map_cons, this]

omit [DecidableEq I] [DecidableEq A] in
theorem marks_new {m : Map Nat (QBridge I A)} {id : Nat} {b : QBridge I A} (h : m.get? id = none) :
    marks (m.insert id b) = marks m ++ [mark b] := by
  induction m with
  | nil => rfl
  | cons e m ih =>
    obtain ⟨k, v⟩ := e
    rw [get?_cons] at h
    unfold Map.insert
    split
    · next hk => rw [if_pos hk] at h; cases h
    · next hk =>
      rw [if_neg hk] at h
      have := ih h
      unfold marks at this ⊢
      rw [List.map_cons, List.map_cons, this]; rfl

omit [DecidableEq I] [DecidableEq A] in
theorem marks_drop {m : Map Nat (QBridge I A)} (hn : m.NodupKeys) {id : Nat} {b : QBridge I A} (h : m.get? id = some b) :
    (marks m).Perm (mark b :: marks (m.erase id)) := by
  induction m with
  | nil => cases h
  | cons e m ih =>
    obtain ⟨k, v⟩ := e
    have hn' : (k :: Map.keys m).Nodup := hn
    rw [List.nodup_cons] at hn'
    rw [get?_cons] at h
    unfold marks Map.erase
    split at h
    · next hk =>
      injection h with h
      subst h hk
      have : List.filter (fun e : Nat × QBridge I A => decide (e.1 ≠ k)) ((k, v) :: m) = m := by
        rw [List.filter_cons_of_neg (by simp)]
        rw [List.filter_eq_self]
        intro x hx
        simp only [ne_eq, decide_not, Bool.not_eq_true', decide_eq_false_iff_not]
        rintro rfl
        exact hn'.1 (List.mem_map_of_mem hx)
      rw [this]; exact .refl _
    · next hk =>
      have hih := ih hn'.2 h
      unfold marks Map.erase at hih
      rw [List.filter_cons_of_pos (by simpa using hk), List.map_cons, List.map_cons]
      exact (hih.cons _).trans (.swap ..)

omit [DecidableEq I] [DecidableEq A] in
theorem marks_modify (m : Map Nat (QBridge I A)) (id k : Nat) : marks (m.modify id (fun c => { c with slot := k })) = marks m := by
  unfold marks Map.modify
  rw [List.map_map]
  apply List.map_congr_left
  intro e _
  simp only [Function.comp]
  split <;> rfl

omit [DecidableEq I] [DecidableEq A] in
theorem mem_marks {m : Map Nat (QBridge I A)} {x : Nat × Bool × Nat} (hn : m.NodupKeys) (h : x ∈ marks m) :
    ∃ id b, m.get? id = some b ∧ mark b = x := by
  obtain ⟨e, he, rfl⟩ := List.mem_map.1 h
  exact ⟨e.1, e.2, get?_of_mem hn he, rfl⟩

/-- Exchanges that are limited per connection. -/
def limited : Option ExKind → Bool
  | some .pushPull | some .userMessage => true
  | _ => false

structure CountInv (X : QCfg) (s : Quic I Q) : Prop where
  eager : ∀ x ∈ marks s.bridges, x.2.1 = false → s.kinds.get? x.2.2 = none
  inbound : s.inbound = (marks s.bridges).countP (fun x => (s.kinds.get? x.2.2).isNone)
  out : ∀ ch e, s.pool.table.conns.get? ch = some e → e.outbound = (marks s.bridges).countP (fun x => x.2.1 && decide (x.1 = ch))
  slots : ∀ ch, (marks s.bridges).countP (fun x => decide (x.1 = ch) && limited (s.kinds.get? x.2.2)) ≤ C_OUT
  accepted : ∀ m, X.maxInbound = some m → (marks s.bridges).countP (fun x => !x.2.1) ≤ m

/-- Nothing counted changed. -/
theorem CountInv.same {s s' : Quic I Q} (h : CountInv X s) (hp : PlaceInv s) (hn : s.bridges.NodupKeys)
    (hm : marks s'.bridges = marks s.bridges) (hi : s'.inbound = s.inbound)
    (hk : ∀ x ∈ marks s.bridges, s'.kinds.get? x.2.2 = s.kinds.get? x.2.2)
    (hc : ∀ ch e', s'.pool.table.conns.get? ch = some e' →
      (∃ e, s.pool.table.conns.get? ch = some e ∧ e'.outbound = e.outbound) ∨
      (s.pool.table.conns.get? ch = none ∧ e'.outbound = 0)) : CountInv X s' := by
  refine ⟨?_, ?_, ?_, ?_, ?_⟩
  · rw [hm]
    intro x hx he
    rw [hk x hx]; exact h.eager x hx he
  · rw [hm, hi, h.inbound]
    apply List.countP_congr
    intro x hx
    rw [hk x hx]
  · rw [hm]
    intro ch e' he'
    rcases hc ch e' he' with ⟨e, he, ho⟩ | ⟨hno, ho⟩
    · rw [ho]; exact h.out ch e he
    · rw [ho]
      symm
      rw [List.countP_eq_zero]
      intro x hx hcon
      simp only [Bool.and_eq_true, decide_eq_true_eq] at hcon
      obtain ⟨id, b, hb, rfl⟩ := mem_marks hn hx
      obtain ⟨e, he, _⟩ := hp.conn id b hb
      have : b.ch = ch := hcon.2
      rw [this, hno] at he; cases he
  · rw [hm]
    intro ch
    refine Nat.le_trans (Nat.le_of_eq ?_) (h.slots ch)
    apply List.countP_congr
    intro x hx
    rw [hk x hx]
  · rw [hm]; exact h.accepted

/-- The bridges and the connections are as they were. -/
theorem CountInv.still {s s' : Quic I Q} (h : CountInv X s) (h1 : s'.bridges = s.bridges) (h2 : s'.inbound = s.inbound)
    (h3 : s'.kinds = s.kinds) (h4 : s'.pool.table = s.pool.table) : CountInv X s' := by
  refine ⟨?_, ?_, ?_, ?_, ?_⟩
  · rw [h1, h3]; exact h.eager
  · rw [h1, h2, h3]; exact h.inbound
  · rw [h1, h4]; exact h.out
  · rw [h1, h3]; exact h.slots
  · rw [h1]; exact h.accepted

theorem unslot_marks (s : Quic I Q) (ch slot : Nat) : marks (s.unslot ch slot).bridges = marks s.bridges ∧
    (s.unslot ch slot).inbound = s.inbound := by
  unfold unslot
  split
  · exact ⟨rfl, rfl⟩
  · split
    · dsimp only
      refine ⟨?_, rfl⟩
      split
      · exact marks_modify ..
      · rfl
    · exact ⟨rfl, rfl⟩

/-- The kind of an exchange without a bridge is forgotten. -/
theorem CountInv.kinds {s s' : Quic I Q} (h : CountInv X s) {id : Nat} (hid : ∀ x ∈ marks s.bridges, x.2.2 ≠ id)
    (h1 : s'.bridges = s.bridges) (h2 : s'.inbound = s.inbound) (h3 : s'.kinds = s.kinds.erase id)
    (h4 : s'.pool = s.pool) : CountInv X s' := by
  have hk : ∀ x ∈ marks s.bridges, s'.kinds.get? x.2.2 = s.kinds.get? x.2.2 := by
    intro x hx
    rw [h3, get?_erase, if_neg (Ne.symm (hid x hx))]
  refine ⟨?_, ?_, ?_, ?_, ?_⟩
  · rw [h1]
    intro x hx he
    rw [hk x hx]; exact h.eager x hx he
  · rw [h1, h2, h.inbound]
    apply List.countP_congr
    intro x hx
    rw [hk x hx]
  · rw [h1, h4]; exact h.out
  · rw [h1]
    intro ch
    refine Nat.le_trans (Nat.le_of_eq ?_) (h.slots ch)
    apply List.countP_congr
    intro x hx
    rw [hk x hx]
  · rw [h1]; exact h.accepted

theorem dial_out {s : Quic I Q} (h : TableInv Q X.caps s.pool.table) (now : Nat) (peer : A) (x : Nat) (e' : QConn Q.C Q.V A)
    (he : (s.pool.dial Q X.caps now peer).1.table.conns.get? x = some e') :
    (∃ e, s.pool.table.conns.get? x = some e ∧ e'.outbound = e.outbound) ∨
    (s.pool.table.conns.get? x = none ∧ e'.outbound = 0) := by
  unfold Pool.dial at he
  rcases getOrDial_spec h s.pool.quinn now peer with ⟨c, e, h1, h2, _, h3⟩ | ⟨_, ⟨m, _, _, h3⟩ | ⟨_, ⟨_, h3⟩ | ⟨c, _, h3⟩⟩⟩
  · rw [h3] at he; exact .inl ⟨e', he, rfl⟩
  · rw [h3] at he; exact .inl ⟨e', he, rfl⟩
  · rw [h3] at he; exact .inl ⟨e', he, rfl⟩
  · rw [h3] at he
    have he : (Map.insert s.pool.table.conns _ _).get? x = some e' := he
    rw [get?_insert] at he
    split at he
    · next hx =>
      injection he with he
      subst he hx
      exact .inr ⟨fresh_none .., rfl⟩
    · exact .inl ⟨e', he, rfl⟩

theorem datagram_out {s : Quic I Q} (now : Nat) (src : A) (bytes : Bytes) (x : Nat) (e' : QConn Q.C Q.V A)
    (he : (s.pool.datagram Q X.caps now src bytes).1.table.conns.get? x = some e') :
    (∃ e, s.pool.table.conns.get? x = some e ∧ e'.outbound = e.outbound) ∨
    (s.pool.table.conns.get? x = none ∧ e'.outbound = 0) := by
  rcases datagram_keep (X := X) (s := s) now src bytes x with hk | hk | ⟨_, f, f', hf, hf', _, ho⟩
  · rw [hk] at he; exact .inl ⟨e', he, rfl⟩
  · refine .inr ⟨hk, ?_⟩
    unfold Pool.datagram at he
    split at he
    · have he : s.pool.table.conns.get? x = some e' := he
      rw [hk] at he; cases he
    · next q ev _ =>
      unfold Pool.route at he
      split at he
      · next ch v _ =>
        unfold ConnTable.on at he
        dsimp only at he
        split at he
        · rw [hk] at he; cases he
        · next e hce =>
          dsimp only at he
          rw [get?_insert] at he
          split at he
          · next hx => rw [hx, hk] at hce; cases hce
          · rw [hk] at he; cases he
      · split at he
        · have he : s.pool.table.conns.get? x = some e' := he
          rw [hk] at he; cases he
        · split at he
          · have he : s.pool.table.conns.get? x = some e' := he
            rw [hk] at he; cases he
          · split at he
            · next q' c _ =>
              unfold ConnTable.insertAccepted at he
              dsimp only at he
              have : ∀ t : ConnTable Q.C Q.V A, (if ConnTable.usable Q t src then t else { t with peers := t.peers.insert src (Q.vacant s.pool.table.conns.keys) }).conns = t.conns := by
                intro t; split <;> rfl
              rw [this] at he
              rw [get?_insert] at he
              split at he
              · injection he with he
                subst he
                rfl
              · rw [hk] at he; cases he
            · have he : s.pool.table.conns.get? x = some e' := he
              rw [hk] at he; cases he
            · have he : s.pool.table.conns.get? x = some e' := he
              rw [hk] at he; cases he
      · have he : s.pool.table.conns.get? x = some e' := he
        rw [hk] at he; cases he
  · rw [hf'] at he
    injection he with he
    subst he
    exact .inl ⟨f, hf, ho⟩

theorem CountInv.move (hS : Q.Sound) {a b : Quic I Q} (h : CountInv X a) (hp : PlaceInv a) (hi : IdsInv cfg env X [] a)
    (hh' : HeldInv a) (hm : Move cfg env X T a b) : CountInv X b := by
  have hn := hi.bridges_nodup
  have keep : ∀ ch (e' : QConn Q.C Q.V A), a.pool.table.conns.get? ch = some e' →
      (∃ e, a.pool.table.conns.get? ch = some e ∧ e'.outbound = e.outbound) ∨
      (a.pool.table.conns.get? ch = none ∧ e'.outbound = 0) := fun ch e' h => .inl ⟨e', h, rfl⟩
  have upd : ∀ ch (e e' : QConn Q.C Q.V A), a.pool.table.conns.get? ch = some e → e'.outbound = e.outbound → ∀ x f,
      (a.pool.table.conns.insert ch e').get? x = some f →
      (∃ g, a.pool.table.conns.get? x = some g ∧ f.outbound = g.outbound) ∨
      (a.pool.table.conns.get? x = none ∧ f.outbound = 0) := by
    intro ch e e' he ho x f hf
    rw [get?_insert] at hf
    split at hf
    · next hx =>
      subst hx
      injection hf with hf
      subst hf
      exact .inl ⟨e, he, ho⟩
    · exact .inl ⟨f, hf, rfl⟩
  have markId : ∀ x ∈ marks a.bridges, x.2.2 ∈ a.bridges.keys := by
    intro x hx
    obtain ⟨id, b, hb, rfl⟩ := mem_marks hn hx
    show b.stream.id ∈ _
    rw [(hh'.bridge id b hb).1]
    exact mem_keys.2 ⟨b, mem_of_get? hb⟩
  cases hm with
  | push src bytes => unfold pushIngress; split <;> exact h.still rfl rfl rfl rfl
  | @commit id b0 ev rest b' now hb hev hr hb' =>
    have ha := hb'.alike
    refine h.same hp hn (marks_put hb ?_) rfl (fun _ _ => rfl) keep
    unfold mark
    rw [ha.ch, ha.eager, ha.id]
  | tweak hb hm =>
    have ha := hm.alike
    refine h.same hp hn (marks_put hb ?_) rfl (fun _ _ => rfl) keep
    unfold mark
    rw [ha.ch, ha.eager, ha.id]
  | conn hc =>
    rcases hc with rfl | ⟨e, e', he, rfl, _, _, _, ho, _, _⟩
    · exact h.still rfl rfl rfl rfl
    · exact h.same hp hn rfl rfl (fun _ _ => rfl) (upd _ e e' he ho)
  | reconcile ch =>
    unfold ConnTable.reconcile
    split
    · exact h.still rfl rfl rfl rfl
    · next e he =>
      obtain ⟨t1, t2, _, _, t5, _⟩ := touch_fields (Q := Q) e
      split
      · exact h.still rfl rfl rfl rfl
      · dsimp only
        split
        · exact h.same hp hn rfl rfl (fun _ _ => rfl) (upd ch e _ he t5)
        · exact h.same hp hn rfl rfl (fun _ _ => rfl) (upd ch e _ he t5)
  | dial now peer =>
    refine h.same hp hn rfl rfl (fun _ _ => rfl) ?_
    exact dial_out hi.table now peer
  | arrive now src bytes hn' =>
    refine h.same hp hn rfl rfl (fun _ _ => rfl) ?_
    exact datagram_out now src bytes
  | reapConn ch hh =>
    refine h.same hp hn rfl rfl (fun _ _ => rfl) ?_
    unfold ConnTable.reapIfDrained
    split
    · exact keep
    · split
      · exact keep
      · intro x f hf
        have hf : (a.pool.table.conns.erase ch).get? x = some f := hf
        rw [get?_erase] at hf
        split at hf
        · cases hf
        · exact keep x f hf
  | sieve _ => unfold takeDials; rw [sieve_eq]; exact h.still rfl rfl rfl rfl
  | pollDial id peer deadline hp => unfold setTimer; rw [queueDial_eq]; exact h.still rfl rfl rfl rfl
  | takeEntry d rest hh hl => rw [takeEntry_eq]; exact h.still rfl rfl rfl rfl
  | repark d now hl =>
    obtain ⟨w, hw⟩ := repark_eq (X := X) a d now
    rw [hw]; exact h.still rfl rfl rfl rfl
  | retire d hl =>
    rw [retire_eq]
    refine h.same hp hn rfl rfl ?_ keep
    intro x hx
    show (a.kinds.erase d.id).get? _ = _
    rw [get?_erase, if_neg]
    intro e
    exact hi.apart (d := d) (by rw [entries_some hl]; simp) (e ▸ markId x hx)
  | dialLost now peer ch hd hn =>
    obtain ⟨e, he, _⟩ := dial_found hi.table hd
    rw [hn] at he
    cases he
  | launch op id peer deadline kind hh hl hs _ =>
    obtain ⟨h1, _⟩ := started_facts hs
    have hf : id ∉ a.held := by rw [h1]; exact hi.fresh
    rw [launch_eq]
    refine h.same hp hn rfl rfl ?_ keep
    intro x hx
    show (a.kinds.insert id kind).get? _ = _
    rw [get?_insert, if_neg]
    intro e
    exact hf (List.mem_append_right _ (e ▸ markId x hx))
  | doomGone id rest hd hb => exact h.still rfl rfl rfl rfl
  | accept ch sid now e st hh hd he hc hst =>
    obtain ⟨h1, _, _, _, _⟩ := accepted_facts hst
    have hf : st.id ∉ a.held := by rw [h1]; exact hi.fresh
    have hu := (unheld_kind hh' hf).1
    have hnone : a.bridges.get? st.id = none := by
      rw [get?_eq_none_iff]; exact fun hm => hf (List.mem_append_right _ hm)
    generalize hs' : ((a.callEp cfg env none (.acceptStream e.peer now)).1.openBridge cfg X st ch sid false) = s'
    have e1 : marks s'.bridges = marks a.bridges ++ [(ch, false, st.id)] := by
      rw [← hs']; exact marks_new hnone
    have e2 : s'.kinds = a.kinds := by rw [← hs']; rfl
    have e3 : s'.inbound = a.inbound + 1 := by
      rw [← hs']
      show (if (a.kinds.get? st.id).isSome then _ else _) = _
      rw [hu]; rfl
    have e4 : s'.pool = a.pool := by rw [← hs']; rfl
    refine ⟨?_, ?_, ?_, ?_, ?_⟩
    · rw [e1, e2]
      intro x hx he
      rcases List.mem_append.1 hx with hx | hx
      · exact h.eager x hx he
      · rw [List.mem_singleton] at hx; subst hx; exact hu
    · rw [e1, e2, e3, List.countP_append, h.inbound]
      simp [hu]
    · rw [e1, e4]
      intro c f hf
      rw [List.countP_append, ← h.out c f hf]
      simp
    · rw [e1, e2]
      intro c
      rw [List.countP_append]
      simp only [List.countP_cons, List.countP_nil, hu, limited, Bool.and_false]
      exact h.slots c
    · rw [e1]
      intro m hm
      rw [List.countP_append]
      have h5 : (marks a.bridges).countP (fun x => !x.2.1) ≤ a.inbound := by
        rw [h.inbound]
        apply List.countP_mono_left
        intro x hx hxe
        have hxe : x.2.1 = false := by simpa using hxe
        rw [h.eager x hx hxe]; rfl
      have := hc m hm
      simp only [List.countP_cons, List.countP_nil, Bool.not_false, if_true]
      omega
  | mint d now ch sid e t st hl hd he hc ht' hst =>
    obtain ⟨h1, _, i, h3, h4⟩ := minted_facts hst
    have hdm : d ∈ a.entries := by rw [entries_some hl]; simp
    have hnone : a.bridges.get? st.id = none := by
      rw [get?_eq_none_iff, h1]; exact hi.apart hdm
    have hon : t = { (a.pool.dial Q X.caps now d.peer).1.table with
          conns := (a.pool.dial Q X.caps now d.peer).1.table.conns.insert ch (e.via Q Q.openBi).1 } := by
      unfold ConnTable.on at ht'
      rw [he] at ht'
      injection ht' with g1 g2
      exact g1.symm
    subst hon
    have hvo : (e.via Q Q.openBi).1.outbound = e.outbound := (touch_fields (Q := Q) e).2.2.2.2.1
    generalize hv : (e.via Q Q.openBi).1 = v at hvo
    have hdo := dial_out hi.table now d.peer
    -- how many were open on it
    have hcount : e.outbound = (marks a.bridges).countP (fun x => x.2.1 && decide (x.1 = ch)) := by
      rcases hdo ch e he with ⟨f, hf, ho⟩ | ⟨hno, ho⟩
      · rw [ho]; exact h.out ch f hf
      · rw [ho]
        symm
        rw [List.countP_eq_zero]
        intro x hx hcon
        simp only [Bool.and_eq_true, decide_eq_true_eq] at hcon
        obtain ⟨id, b, hb, rfl⟩ := mem_marks hn hx
        obtain ⟨e, he, _⟩ := hp.conn id b hb
        have : b.ch = ch := hcon.2
        rw [this, hno] at he; cases he
    generalize hP : (a.pool.dial Q X.caps now d.peer).1 = P at he hdo
    generalize hs' : ((({ a with pool := { P with table := { P.table with conns := P.table.conns.insert ch v } } } : Quic I Q).callEp cfg env
        (some d.id) (.dialSucceeded d.id now)).1.mintDialled cfg X st ch sid) = s'
    have e1 : marks s'.bridges = marks a.bridges ++ [(ch, true, st.id)] := by
      rw [← hs']; exact marks_new hnone
    have e2 : s'.kinds = a.kinds := by rw [← hs']; rfl
    have e3 : s'.inbound = if a.kinds.contains st.id then a.inbound else a.inbound + 1 := by rw [← hs']; rfl
    have e4 : s'.pool.table.conns = (P.table.conns.insert ch v).insert ch { v with outbound := v.outbound + 1 } := by
      rw [← hs']
      show (ConnTable.on Q { P.table with conns := P.table.conns.insert ch v } ch _).1.conns = _
      unfold ConnTable.on
      rw [get?_insert_self]
    refine ⟨?_, ?_, ?_, ?_, ?_⟩
    · rw [e1, e2]
      intro x hx he
      rcases List.mem_append.1 hx with hx | hx
      · exact h.eager x hx he
      · rw [List.mem_singleton] at hx; subst hx; cases he
    · rw [e1, e2, e3, List.countP_append, h.inbound]
      unfold Map.contains
      cases hkk : a.kinds.get? st.id <;> simp [hkk]
    · rw [e1, e4]
      intro c f hf
      rw [List.countP_append]
      rw [get?_insert, get?_insert] at hf
      split at hf
      · next hx =>
        subst hx
        injection hf with hf
        subst hf
        show v.outbound + 1 = _
        rw [hvo, hcount]
        simp
      · next hx =>
        have : List.countP (fun x : Nat × Bool × Nat => x.2.1 && decide (x.1 = c)) [(ch, true, st.id)] = 0 := by
          simp [hx]
        rw [this, Nat.add_zero]
        rcases hdo c f hf with ⟨g, hg, ho⟩ | ⟨hno, ho⟩
        · rw [ho]; exact h.out c g hg
        · rw [ho]
          symm
          rw [List.countP_eq_zero]
          intro x hx hcon
          simp only [Bool.and_eq_true, decide_eq_true_eq] at hcon
          obtain ⟨id, b, hb, rfl⟩ := mem_marks hn hx
          obtain ⟨e, he, _⟩ := hp.conn id b hb
          have : b.ch = c := hcon.2
          rw [this, hno] at he; cases he
    · rw [e1, e2]
      intro c
      rw [List.countP_append]
      by_cases hx : ch = c ∧ limited (a.kinds.get? st.id) = true
      · obtain ⟨rfl, hlim⟩ := hx
        have hk : ∃ k, a.kinds.get? st.id = some k ∧ k ≠ .reliablePing := by
          unfold limited at hlim
          split at hlim
          · next hk => exact ⟨_, hk, by simp⟩
          · next hk => exact ⟨_, hk, by simp⟩
          · cases hlim
        obtain ⟨k, hk, hkp⟩ := hk
        have hdk := (hh'.entry d hdm k (by rw [← h1]; exact hk)).1
        have hlt : e.outbound < C_OUT := by
          rcases hc with hc | hc
          · exact absurd (hdk.trans hc) hkp
          · exact hc
        have hle : (marks a.bridges).countP (fun x => decide (x.1 = ch) && limited (a.kinds.get? x.2.2)) ≤
            (marks a.bridges).countP (fun x => x.2.1 && decide (x.1 = ch)) := by
          apply List.countP_mono_left
          intro x hx hxe
          simp only [Bool.and_eq_true, decide_eq_true_eq] at hxe ⊢
          refine ⟨?_, hxe.1⟩
          cases hxb : x.2.1 with
          | true => rfl
          | false =>
            have := h.eager x hx hxb
            rw [this] at hxe
            cases hxe.2
        have : List.countP (fun x : Nat × Bool × Nat => decide (x.1 = ch) && limited (a.kinds.get? x.2.2)) [(ch, true, st.id)] ≤ 1 :=
          List.countP_le_length
        rw [hcount] at hlt
        omega
      · have : List.countP (fun x : Nat × Bool × Nat => decide (x.1 = c) && limited (a.kinds.get? x.2.2)) [(ch, true, st.id)] = 0 := by
          rw [List.countP_eq_zero]
          intro x hx' hcon
          rw [List.mem_singleton] at hx'
          subst hx'
          simp only [Bool.and_eq_true, decide_eq_true_eq] at hcon
          exact hx hcon
        rw [this]; exact h.slots c
    · rw [e1]
      intro m hm
      rw [List.countP_append]
      exact h.accepted m hm
  | reap id ch b lost hb hbt _ hl =>
    have hch : b.ch = ch := by
      cases lost with
      | false => exact hl.1
      | true =>
        obtain ⟨hh, rest, hd⟩ := hl
        obtain ⟨c, hc, g⟩ := hp.doomed id (by rw [hd]; exact List.mem_cons_self)
        rw [hb] at hc
        injection hc with hc
        subst hc
        rw [hh] at g
        injection g with g
        exact g.symm
    subst hch
    have hid := (hh'.bridge id b hb).1
    have hperm := marks_drop hn hb
    have hother : ∀ x ∈ marks (a.bridges.erase id), x.2.2 ≠ id ∧ x ∈ marks a.bridges := by
      intro x hx
      obtain ⟨y, c, hc, rfl⟩ := mem_marks (nodup_erase hn id) hx
      rw [get?_erase] at hc
      split at hc
      · cases hc
      · next hne =>
        refine ⟨?_, List.mem_map.2 ⟨(y, c), mem_of_get? hc, rfl⟩⟩
        show c.stream.id ≠ id
        rw [(hh'.bridge y c hc).1]
        exact Ne.symm hne
    -- before the report
    have key : ∀ s1 : Quic I Q, s1.kinds = a.kinds → marks s1.bridges = marks (a.bridges.erase id) →
        s1.inbound = (if a.kinds.contains id then a.inbound else a.inbound - 1) → s1.pool = a.pool →
        CountInv X (if b.eager then s1.freeSlot b.ch else s1) := by
      intro s1 k1 k2 k3 k4
      have cnt : ∀ P : Nat × Bool × Nat → Bool, (marks a.bridges).countP P =
          (marks (a.bridges.erase id)).countP P + if P (mark b) then 1 else 0 := by
        intro P
        rw [hperm.countP_eq, List.countP_cons]
      have inb : s1.inbound = (marks (a.bridges.erase id)).countP (fun x => (a.kinds.get? x.2.2).isNone) := by
        rw [k3, h.inbound, cnt]
        unfold Map.contains
        show (if (a.kinds.get? id).isSome then _ else _) = _
        rw [show (mark b).2.2 = id from hid]
        cases hkk : a.kinds.get? id <;> simp [hkk]
      have lim : ∀ P : Nat × Bool × Nat → Bool, (marks (a.bridges.erase id)).countP P ≤ (marks a.bridges).countP P := by
        intro P; rw [cnt]; omega
      cases hbe : b.eager with
      | false =>
        refine ⟨?_, ?_, ?_, ?_, ?_⟩
        · rw [if_neg (by simp), k2, k1]; exact fun x hx => h.eager x (hother x hx).2
        · rw [if_neg (by simp), k2, k1]; exact inb
        · rw [if_neg (by simp), k2, k4]
          intro c e he
          rw [h.out c e he, cnt]
          have : (mark b).2.1 = false := hbe
          simp [this]
        · rw [if_neg (by simp), k2, k1]; exact fun c => Nat.le_trans (lim _) (h.slots c)
        · rw [if_neg (by simp), k2]; exact fun m hm => Nat.le_trans (lim _) (h.accepted m hm)
      | true =>
        obtain ⟨e, he, _⟩ := hp.conn id b hb
        have f1 : (s1.freeSlot b.ch).bridges = s1.bridges := (freeSlot_rest s1 b.ch).2.2.2.2
        have f2 : (s1.freeSlot b.ch).kinds = s1.kinds := (freeSlot_rest s1 b.ch).1
        have f3 : (s1.freeSlot b.ch).inbound = s1.inbound := by unfold freeSlot; split <;> rfl
        have f4 : (s1.freeSlot b.ch).pool.table.conns = a.pool.table.conns.insert b.ch { e with outbound := e.outbound - 1 } := by
          unfold freeSlot
          unfold Quic.table
          rw [k4, he]
        rw [if_pos rfl]
        refine ⟨?_, ?_, ?_, ?_, ?_⟩
        · rw [f1, f2, k2, k1]; exact fun x hx => h.eager x (hother x hx).2
        · rw [f1, f2, f3, k2, k1]; exact inb
        · rw [f1, f4, k2]
          intro c g hg
          rw [get?_insert] at hg
          split at hg
          · next hx =>
            subst hx
            injection hg with hg
            subst hg
            show e.outbound - 1 = _
            rw [h.out b.ch e he, cnt]
            have : (mark b).2.1 = true := hbe
            have h2 : (mark b).1 = b.ch := rfl
            simp [this, h2]
          · next hx =>
            rw [h.out c g hg, cnt]
            have h2 : (mark b).1 = b.ch := rfl
            simp [h2, hx]
        · rw [f1, f2, k2, k1]; exact fun c => Nat.le_trans (lim _) (h.slots c)
        · rw [f1, k2]; exact fun m hm => Nat.le_trans (lim _) (h.accepted m hm)
    have hpre : CountInv X (a.preReap id b b.ch lost) := by
      unfold preReap
      dsimp only
      cases lost with
      | true => exact key _ rfl rfl rfl rfl
      | false =>
        obtain ⟨u1, u2, _⟩ := unslot_rest (a.unindex id b.ch b.sid) b.ch b.slot
        obtain ⟨m1, m2⟩ := unslot_marks (a.unindex id b.ch b.sid) b.ch b.slot
        exact key _ u2 m1 m2 u1
    have hmk : marks (a.preReap id b b.ch lost).bridges = marks (a.bridges.erase id) := by
      unfold preReap
      dsimp only
      have fr : ∀ s1 : Quic I Q, (if b.eager then s1.freeSlot b.ch else s1).bridges = s1.bridges := by
        intro s1
        split
        · exact (freeSlot_rest s1 b.ch).2.2.2.2
        · rfl
      rw [fr]
      cases lost with
      | true => rfl
      | false => exact (unslot_marks (a.unindex id b.ch b.sid) b.ch b.slot).1
    rw [reapBridge_pre]
    rcases complete_cases (cfg := cfg) (env := env) (a.preReap id b b.ch lost) id (!b.isFailed) with ⟨_, g⟩ | ⟨k, _, _, g⟩ | ⟨k, p, _, _, g⟩
    · rw [g]; exact hpre
    · rw [g]; exact hpre.kinds (by rw [hmk]; intro x hx; exact (hother x hx).1) rfl rfl rfl rfl
    · rw [g]; exact hpre.kinds (by rw [hmk]; intro x hx; exact (hother x hx).1) rfl rfl rfl rfl
  | _ => exact h.still rfl rfl rfl rfl

end Verif.Quic
