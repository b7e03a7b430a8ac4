import Verif.Proof.QuicHeld
/-
Every exchange of the QUIC node sits on one stream of one connection, and the indexes by connection and by stream are
exact.
-/
namespace Verif.Quic
open Verif Map QBridge
variable {I A : Type} [DecidableEq I] [DecidableEq A] {Q : Quinn A}
variable {cfg : Cfg I A} {env : Env I A} {X : QCfg} {T : TEnv}

theorem swapRemove_get {α : Type} (l : List α) (i : Nat) (h : i < l.length) (j : Nat) :
    (swapRemove l i)[j]? = if j + 1 < l.length then (if j = i then l[l.length - 1]? else l[j]?) else none := by
  unfold swapRemove
  cases hl : l.getLast? with
  | none => rw [List.getLast?_eq_none_iff] at hl; subst hl; simp at h
  | some x =>
    have hx : l[l.length - 1]? = some x := by rw [← List.getLast?_eq_getElem?]; exact hl
    simp only [List.getElem?_dropLast, List.length_set, List.getElem?_set]
    by_cases hj : j + 1 < l.length
    · rw [if_pos (by omega), if_pos hj]
      by_cases hi : j = i
      · subst hi; rw [if_pos rfl, if_pos rfl, if_pos (by omega), hx]
      · rw [if_neg (by omega), if_neg hi]
    · rw [if_neg (by omega), if_neg hj]

/-- The bucket of a connection. -/
def bucketAt (s : Quic I Q) (ch : Nat) : List Nat := match s.byConn.get? ch with | some l => l | none => []

structure PlaceInv (s : Quic I Q) : Prop where
  fine : s.panicked = false
  slots : ∀ ch l, s.byConn.get? ch = some l → l ≠ [] ∧ l.Nodup ∧
    ∀ i id, l[i]? = some id → ∃ b, s.bridges.get? id = some b ∧ b.ch = ch ∧ b.slot = i
  placed : ∀ id b, s.bridges.get? id = some b →
    (∃ l, s.byConn.get? b.ch = some l ∧ l[b.slot]? = some id) ∨ (id ∈ s.doom ∧ s.hot = some b.ch)
  doomNodup : s.doom.Nodup
  doomed : ∀ id ∈ s.doom, ∃ b, s.bridges.get? id = some b ∧ s.hot = some b.ch
  doomOut : ∀ id ∈ s.doom, ∀ ch l, s.byConn.get? ch = some l → id ∉ l
  sids : ∀ ch sid id, s.bySid.get? (ch, sid) = some id → ∃ b, s.bridges.get? id = some b ∧ b.ch = ch ∧ b.sid = sid
  conn : ∀ id b, s.bridges.get? id = some b → ∃ e, s.pool.table.conns.get? b.ch = some e ∧ e.peer = b.stream.peer
  drained : ∀ ch e, s.pool.table.conns.get? ch = some e → Q.drained e.conn = true →
    s.hot = some ch ∨ s.byConn.get? ch = none

/-- A bucket leads to a connection. -/
theorem PlaceInv.bucket {s : Quic I Q} (h : PlaceInv s) {ch : Nat} {l : List Nat} (hl : s.byConn.get? ch = some l) :
    ∃ e, s.pool.table.conns.get? ch = some e := by
  obtain ⟨h1, _, h2⟩ := h.slots ch l hl
  cases l with
  | nil => exact absurd rfl h1
  | cons x l =>
    obtain ⟨b, hb, hc, _⟩ := h2 0 x rfl
    obtain ⟨e, he, _⟩ := h.conn x b hb
    exact ⟨e, hc ▸ he⟩

/-- The connections changed. -/
theorem PlaceInv.conns {s s' : Quic I Q} (h : PlaceInv s) (h1 : s'.panicked = s.panicked) (h2 : s'.byConn = s.byConn)
    (h3 : s'.bridges = s.bridges) (h4 : s'.doom = s.doom) (h5 : s'.bySid = s.bySid) (h6 : s'.hot = s.hot ∨ s.doom = [])
    (hc : ∀ id b, s.bridges.get? id = some b → ∀ e, s.pool.table.conns.get? b.ch = some e →
      ∃ e', s'.pool.table.conns.get? b.ch = some e' ∧ e'.peer = e.peer)
    (hd : ∀ ch e', s'.pool.table.conns.get? ch = some e' → Q.drained e'.conn = true → s'.hot = some ch ∨ s.byConn.get? ch = none) :
    PlaceInv s' := by
  refine ⟨h1 ▸ h.fine, ?_, ?_, h4 ▸ h.doomNodup, ?_, ?_, ?_, ?_, ?_⟩
  · rw [h2, h3]; exact h.slots
  · rw [h2, h3, h4]
    intro id b hb
    rcases h.placed id b hb with hp | ⟨hp1, hp2⟩
    · exact .inl hp
    · rcases h6 with h6 | h6
      · exact .inr ⟨hp1, h6 ▸ hp2⟩
      · rw [h6] at hp1; cases hp1
  · rw [h3, h4]
    rcases h6 with h6 | h6
    · rw [h6]; exact h.doomed
    · rw [h6]; intro id hm; cases hm
  · rw [h2, h4]; exact h.doomOut
  · rw [h3, h5]; exact h.sids
  · rw [h3]
    intro id b hb
    obtain ⟨e, he, hp⟩ := h.conn id b hb
    obtain ⟨e', he', hp'⟩ := hc id b hb e he
    exact ⟨e', he', hp'.trans hp⟩
  · rw [h2]; exact hd

/-- Nothing about it changed. -/
theorem PlaceInv.still {s s' : Quic I Q} (h : PlaceInv s) (h1 : s'.panicked = s.panicked) (h2 : s'.byConn = s.byConn)
    (h3 : s'.bridges = s.bridges) (h4 : s'.doom = s.doom) (h5 : s'.bySid = s.bySid) (h6 : s'.hot = s.hot)
    (h7 : s'.pool.table = s.pool.table) : PlaceInv s' :=
  h.conns h1 h2 h3 h4 h5 (.inl h6) (fun id b _ e he => ⟨e, by rw [h7]; exact he, rfl⟩)
    (fun ch e he hd => by rw [h6]; rw [h7] at he; exact h.drained ch e he hd)

/-- One connection changed. -/
theorem PlaceInv.update {s s' : Quic I Q} (h : PlaceInv s) (h1 : s'.panicked = s.panicked) (h2 : s'.byConn = s.byConn)
    (h3 : s'.bridges = s.bridges) (h4 : s'.doom = s.doom) (h5 : s'.bySid = s.bySid) (h6 : s'.hot = s.hot) {ch : Nat}
    {e e' : QConn Q.C Q.V A} (he : s.pool.table.conns.get? ch = some e)
    (h7 : s'.pool.table.conns = s.pool.table.conns.insert ch e') (hp : e'.peer = e.peer)
    (hd : s.hot = some ch ∨ Q.drained e'.conn = Q.drained e.conn) : PlaceInv s' := by
  refine h.conns h1 h2 h3 h4 h5 (.inl h6) ?_ ?_
  · intro id b _ f hf
    rw [h7, get?_insert]
    by_cases hx : ch = b.ch
    · rw [if_pos hx]
      rw [← hx, he] at hf
      injection hf with hf
      subst hf
      exact ⟨e', rfl, hp⟩
    · rw [if_neg hx]; exact ⟨f, hf, rfl⟩
  · intro x f hf hdr
    rw [h7, get?_insert] at hf
    rw [h6]
    split at hf
    · next hx =>
      subst hx
      injection hf with hf
      subst hf
      rcases hd with hd | hd
      · exact .inl hd
      · rw [hd] at hdr; exact h.drained ch e he hdr
    · exact h.drained x f hf hdr

/-- A bridge changed. -/
theorem PlaceInv.put {s s' : Quic I Q} (h : PlaceInv s) {id : Nat} {b b' : QBridge I A} (hb : s.bridges.get? id = some b)
    (ha : Alike b b') (h1 : s'.panicked = s.panicked) (h2 : s'.byConn = s.byConn)
    (h3 : s'.bridges = s.bridges.insert id b') (h4 : s'.doom = s.doom) (h5 : s'.bySid = s.bySid) (h6 : s'.hot = s.hot)
    (h7 : s'.pool.table = s.pool.table) : PlaceInv s' := by
  have fwd : ∀ x c, s.bridges.get? x = some c → ∃ c', s'.bridges.get? x = some c' ∧ Alike c c' := by
    intro x c hc
    rw [h3, get?_insert]
    split
    · next e => subst e; rw [hb] at hc; injection hc with hc; subst hc; exact ⟨b', rfl, ha⟩
    · exact ⟨c, hc, .refl c⟩
  have bwd : ∀ x c', s'.bridges.get? x = some c' → ∃ c, s.bridges.get? x = some c ∧ Alike c c' := by
    intro x c' hc
    rw [h3, get?_insert] at hc
    split at hc
    · next e => subst e; injection hc with hc; subst hc; exact ⟨b, hb, ha⟩
    · exact ⟨c', hc, .refl c'⟩
  refine ⟨h1 ▸ h.fine, ?_, ?_, h4 ▸ h.doomNodup, ?_, ?_, ?_, ?_, ?_⟩
  · rw [h2]
    intro ch l hl
    obtain ⟨g1, g2, g3⟩ := h.slots ch l hl
    refine ⟨g1, g2, fun i x hx => ?_⟩
    obtain ⟨c, hc, k1, k2⟩ := g3 i x hx
    obtain ⟨c', hc', k⟩ := fwd x c hc
    exact ⟨c', hc', k.ch.trans k1, k.slot.trans k2⟩
  · intro x c' hc'
    obtain ⟨c, hc, k⟩ := bwd x c' hc'
    rw [h2, h4, h6, k.ch, k.slot]
    exact h.placed x c hc
  · rw [h4, h6]
    intro x hx
    obtain ⟨c, hc, g⟩ := h.doomed x hx
    obtain ⟨c', hc', k⟩ := fwd x c hc
    exact ⟨c', hc', by rw [k.ch]; exact g⟩
  · rw [h2, h4]; exact h.doomOut
  · rw [h5]
    intro ch sid x hx
    obtain ⟨c, hc, g1, g2⟩ := h.sids ch sid x hx
    obtain ⟨c', hc', k⟩ := fwd x c hc
    exact ⟨c', hc', k.ch.trans g1, k.sid.trans g2⟩
  · intro x c' hc'
    obtain ⟨c, hc, k⟩ := bwd x c' hc'
    rw [h7, k.ch, k.peer]
    exact h.conn x c hc
  · rw [h2, h6, h7]; exact h.drained

/-- A bridge opens. -/
theorem PlaceInv.open {s s' : Quic I Q} (h : PlaceInv s) {id ch sid : Nat} {b : QBridge I A} (hn : s.bridges.get? id = none)
    (h1 : s'.panicked = false) (h2 : s'.byConn = s.byConn.insert ch (s.bucketAt ch ++ [id]))
    (h3 : s'.bridges = s.bridges.insert id b) (h4 : s'.doom = s.doom) (h5 : s'.bySid = s.bySid.insert (ch, sid) id)
    (h6 : s'.hot = s.hot) (h7 : s'.pool.table = s.pool.table) (b1 : b.ch = ch) (b2 : b.sid = sid)
    (b3 : b.slot = (s.bucketAt ch).length)
    (he : ∃ e, s.pool.table.conns.get? ch = some e ∧ e.peer = b.stream.peer ∧ (Q.drained e.conn = true → s.hot = some ch)) :
    PlaceInv s' := by
  have hfree : ∀ c l, s.byConn.get? c = some l → id ∉ l := by
    intro c l hl hm
    obtain ⟨i, hi⟩ := List.getElem?_of_mem hm
    obtain ⟨c', hc', _⟩ := (h.slots c l hl).2.2 i id hi
    rw [hn] at hc'; cases hc'
  have hnd : id ∉ s.doom := by
    intro hm
    obtain ⟨c, hc, _⟩ := h.doomed id hm
    rw [hn] at hc; cases hc
  have old : ∀ x c, s.bridges.get? x = some c → s'.bridges.get? x = some c := by
    intro x c hc
    rw [h3, get?_insert, if_neg]
    · exact hc
    · rintro rfl; rw [hn] at hc; cases hc
  have hself : s'.bridges.get? id = some b := by rw [h3, get?_insert_self]
  have hbk : ∀ l, s.byConn.get? ch = some l → s.bucketAt ch = l := by
    intro l hl; unfold bucketAt; rw [hl]
  have hbk2 : ∀ (i : Nat) (x : Nat), (s.bucketAt ch)[i]? = some x → ∃ l, s.byConn.get? ch = some l ∧ l[i]? = some x := by
    intro i x hx
    unfold bucketAt at hx
    split at hx
    · next l hl => exact ⟨l, hl, hx⟩
    · simp at hx
  have hbn : (s.bucketAt ch).Nodup := by
    unfold bucketAt
    split
    · next l hl => exact (h.slots ch l hl).2.1
    · exact List.nodup_nil
  have hbf : id ∉ s.bucketAt ch := by
    unfold bucketAt
    split
    · next l hl => exact hfree ch l hl
    · simp
  refine ⟨h1, ?_, ?_, h4 ▸ h.doomNodup, ?_, ?_, ?_, ?_, ?_⟩
  · rw [h2]
    intro c l hl
    rw [get?_insert] at hl
    split at hl
    · next e =>
      subst e
      injection hl with hl
      subst hl
      refine ⟨by simp, ?_, ?_⟩
      · rw [List.nodup_append]
        refine ⟨hbn, by simp, ?_⟩
        intro x hx y hy
        rw [List.mem_singleton] at hy
        subst hy
        rintro rfl
        exact hbf hx
      · intro i x hx
        rw [List.getElem?_append] at hx
        split at hx
        · obtain ⟨l, hl, hx⟩ := hbk2 i x hx
          obtain ⟨c', hc', g⟩ := (h.slots ch l hl).2.2 i x hx
          exact ⟨c', old x c' hc', g⟩
        · next hi =>
          rw [List.getElem?_singleton] at hx
          split at hx
          · injection hx with hx
            subst hx
            exact ⟨b, hself, b1, by omega⟩
          · cases hx
    · obtain ⟨g1, g2, g3⟩ := h.slots c l hl
      refine ⟨g1, g2, fun i x hx => ?_⟩
      obtain ⟨c', hc', g⟩ := g3 i x hx
      exact ⟨c', old x c' hc', g⟩
  · intro x c hc
    rw [h2, h4, h6]
    rw [h3, get?_insert] at hc
    split at hc
    · next e =>
      subst e
      injection hc with hc
      subst hc
      left
      rw [b1, get?_insert_self]
      refine ⟨_, rfl, ?_⟩
      rw [b3]; simp
    · rcases h.placed x c hc with ⟨l, hl, hx⟩ | hp
      · left
        rw [get?_insert]
        split
        · next e =>
          refine ⟨_, rfl, ?_⟩
          rw [hbk l (e ▸ hl), List.getElem?_append_left]
          · exact hx
          · exact (List.getElem?_eq_some_iff.1 hx).1
        · exact ⟨l, hl, hx⟩
      · exact .inr hp
  · rw [h4, h6]
    intro x hx
    obtain ⟨c, hc, g⟩ := h.doomed x hx
    exact ⟨c, old x c hc, g⟩
  · rw [h2, h4]
    intro x hx c l hl
    rw [get?_insert] at hl
    split at hl
    · next e =>
      injection hl with hl
      subst hl
      intro hm
      rcases List.mem_append.1 hm with hm | hm
      · obtain ⟨i, hi⟩ := List.getElem?_of_mem hm
        obtain ⟨l, hl, hx'⟩ := hbk2 i x hi
        exact h.doomOut x hx ch l hl (List.mem_of_getElem? hx')
      · rw [List.mem_singleton] at hm
        subst hm
        exact hnd hx
    · exact h.doomOut x hx c l hl
  · rw [h5]
    intro c sid' x hx
    rw [get?_insert] at hx
    split at hx
    · next e =>
      injection hx with hx
      subst hx
      injection e with e1 e2
      exact ⟨b, hself, b1.trans e1, b2.trans e2⟩
    · obtain ⟨c', hc', g⟩ := h.sids c sid' x hx
      exact ⟨c', old x c' hc', g⟩
  · rw [h7]
    intro x c hc
    rw [h3, get?_insert] at hc
    split at hc
    · injection hc with hc
      subst hc
      obtain ⟨e, he1, he2, _⟩ := he
      exact ⟨e, b1 ▸ he1, he2⟩
    · exact h.conn x c hc
  · rw [h2, h6, h7]
    intro c e he' hd
    rw [get?_insert]
    split
    · next hx =>
      subst hx
      obtain ⟨e2, he1, _, he3⟩ := he
      rw [he1] at he'
      injection he' with he'
      subst he'
      exact .inl (he3 hd)
    · exact h.drained c e he' hd

/-- A bridge of a lost connection is reaped. -/
theorem PlaceInv.lost {s s' : Quic I Q} (h : PlaceInv s) {id ch : Nat} {rest : List Nat} {b : QBridge I A}
    (hb : s.bridges.get? id = some b) (hh : s.hot = some ch) (hd : s.doom = id :: rest)
    (h1 : s'.panicked = s.panicked) (h2 : s'.byConn = s.byConn) (h3 : s'.bridges = s.bridges.erase id) (h4 : s'.doom = rest)
    (h5 : s'.bySid = s.bySid.erase (ch, b.sid)) (h6 : s'.hot = s.hot) (h7 : s'.pool.table = s.pool.table) : PlaceInv s' := by
  have hch : b.ch = ch := by
    obtain ⟨c, hc, g⟩ := h.doomed id (by rw [hd]; exact List.mem_cons_self)
    rw [hb] at hc
    injection hc with hc
    subst hc
    rw [hh] at g
    injection g with g
    exact g.symm
  have hnd := h.doomNodup
  rw [hd, List.nodup_cons] at hnd
  have old : ∀ x c, x ≠ id → s.bridges.get? x = some c → s'.bridges.get? x = some c := by
    intro x c hx hc
    rw [h3, get?_erase, if_neg (Ne.symm hx)]; exact hc
  have bwd : ∀ x c, s'.bridges.get? x = some c → x ≠ id ∧ s.bridges.get? x = some c := by
    intro x c hc
    rw [h3, get?_erase] at hc
    split at hc
    · cases hc
    · next hx => exact ⟨Ne.symm hx, hc⟩
  refine ⟨h1 ▸ h.fine, ?_, ?_, h4 ▸ hnd.2, ?_, ?_, ?_, ?_, ?_⟩
  · rw [h2]
    intro c l hl
    obtain ⟨g1, g2, g3⟩ := h.slots c l hl
    refine ⟨g1, g2, fun i x hx => ?_⟩
    obtain ⟨c', hc', g⟩ := g3 i x hx
    refine ⟨c', old x c' ?_ hc', g⟩
    rintro rfl
    exact h.doomOut x (by rw [hd]; exact List.mem_cons_self) c l hl (List.mem_of_getElem? hx)
  · intro x c hc
    obtain ⟨hx, hc⟩ := bwd x c hc
    rw [h2, h4, h6]
    rcases h.placed x c hc with hp | ⟨hp1, hp2⟩
    · exact .inl hp
    · rw [hd] at hp1
      rcases List.mem_cons.1 hp1 with hp1 | hp1
      · exact absurd hp1 hx
      · exact .inr ⟨hp1, hp2⟩
  · rw [h4, h6]
    intro x hx
    obtain ⟨c, hc, g⟩ := h.doomed x (by rw [hd]; exact List.mem_cons_of_mem _ hx)
    exact ⟨c, old x c (fun e => hnd.1 (e ▸ hx)) hc, g⟩
  · rw [h2, h4]
    intro x hx
    exact h.doomOut x (by rw [hd]; exact List.mem_cons_of_mem _ hx)
  · rw [h5]
    intro c sid x hx
    rw [get?_erase] at hx
    split at hx
    · cases hx
    · next hne =>
      obtain ⟨c', hc', g1, g2⟩ := h.sids c sid x hx
      refine ⟨c', old x c' ?_ hc', g1, g2⟩
      rintro rfl
      rw [hb] at hc'
      injection hc' with hc'
      subst hc'
      exact hne (by rw [← g1, ← g2, hch])
  · rw [h7]
    intro x c hc
    exact h.conn x c (bwd x c hc).2
  · rw [h2, h6, h7]; exact h.drained

/-- A bridge leaves its connection. -/
theorem PlaceInv.unslot {s : Quic I Q} (h : PlaceInv s) {id ch : Nat} {b : QBridge I A}
    (hb : s.bridges.get? id = some b) (hch : b.ch = ch) (hd : s.doom = []) :
    PlaceInv ((s.unindex id ch b.sid).unslot ch b.slot) := by
  obtain ⟨l, hl, hli⟩ : ∃ l, s.byConn.get? b.ch = some l ∧ l[b.slot]? = some id := by
    rcases h.placed id b hb with hp | ⟨hp, _⟩
    · exact hp
    · rw [hd] at hp; cases hp
  rw [hch] at hl
  have hlt : b.slot < l.length := (List.getElem?_eq_some_iff.1 hli).1
  obtain ⟨_, hnd, hsl⟩ := h.slots ch l hl
  -- positions are unique
  have inj : ∀ i j x : Nat, l[i]? = some x → l[j]? = some x → i = j := by
    intro i j x hi hj
    have h1 := (List.getElem?_eq_some_iff.1 hi).1
    exact (List.getElem?_inj h1 hnd).1 (hi.trans hj.symm)
  generalize hl' : swapRemove l b.slot = l'
  have get' : ∀ j : Nat, l'[j]? = if j + 1 < l.length then (if j = b.slot then l[l.length - 1]? else l[j]?) else none := by
    intro j; rw [← hl']; exact swapRemove_get l b.slot hlt j
  -- the bridges afterwards
  generalize hs' : (s.unindex id ch b.sid).unslot ch b.slot = s'
  have e0 : s' = { s.unindex id ch b.sid with
        bridges := match l'[b.slot]? with
          | some sib => (s.bridges.erase id).modify sib (fun c => { c with slot := b.slot })
          | none => s.bridges.erase id
        byConn := if l' = [] then s.byConn.erase ch else s.byConn.insert ch l' } := by
    rw [← hs', ← hl']
    unfold Quic.unslot
    rw [show (s.unindex id ch b.sid).byConn = s.byConn from rfl, hl]
    dsimp only
    rw [if_pos hlt]
    rfl
  have fwd : ∀ x c, x ≠ id → s.bridges.get? x = some c → s'.bridges.get? x =
      some (if l'[b.slot]? = some x then { c with slot := b.slot } else c) := by
    intro x c hx hc
    rw [e0]
    dsimp only
    cases hg : l'[b.slot]? with
    | none => 
      show (s.bridges.erase id).get? x = _
      rw [get?_erase, if_neg (Ne.symm hx), hc]; rfl
    | some sib =>
      show ((s.bridges.erase id).modify sib (fun c => { c with slot := b.slot })).get? x = _
      rw [get?_modify, get?_erase, if_neg (Ne.symm hx), hc]
      by_cases hxs : sib = x
      · subst hxs; simp
      · rw [if_neg hxs, if_neg (by intro e; injection e with e; exact hxs e)]
  have bwd : ∀ x c', s'.bridges.get? x = some c' → x ≠ id ∧ ∃ c, s.bridges.get? x = some c ∧
      c' = if l'[b.slot]? = some x then { c with slot := b.slot } else c := by
    intro x c' hc'
    have hx : x ≠ id := by
      rintro rfl
      rw [e0] at hc'
      dsimp only at hc'
      have herr : (s.bridges.erase x).get? x = none := by rw [get?_erase, if_pos rfl]
      cases hg : l'[b.slot]? with
      | none =>
        rw [hg] at hc'
        have hc' : (s.bridges.erase x).get? x = some c' := hc'
        rw [herr] at hc'; cases hc'
      | some sib =>
        rw [hg] at hc'
        have hc' : ((s.bridges.erase x).modify sib (fun c => { c with slot := b.slot })).get? x = some c' := hc'
        rw [get?_modify, herr] at hc'
        split at hc' <;> cases hc'
    refine ⟨hx, ?_⟩
    cases hc : s.bridges.get? x with
    | none =>
      exfalso
      rw [e0] at hc'
      dsimp only at hc'
      have herr : (s.bridges.erase id).get? x = none := by rw [get?_erase, if_neg (Ne.symm hx)]; exact hc
      cases hg : l'[b.slot]? with
      | none =>
        rw [hg] at hc'
        have hc' : (s.bridges.erase id).get? x = some c' := hc'
        rw [herr] at hc'; cases hc'
      | some sib =>
        rw [hg] at hc'
        have hc' : ((s.bridges.erase id).modify sib (fun c => { c with slot := b.slot })).get? x = some c' := hc'
        rw [get?_modify, herr] at hc'
        split at hc' <;> cases hc'
    | some c =>
      have := fwd x c hx hc
      rw [this] at hc'
      injection hc' with hc'
      exact ⟨c, rfl, hc'.symm⟩
  have field : ∀ x c c', c' = (if l'[b.slot]? = some x then ({ c with slot := b.slot } : QBridge I A) else c) →
      c'.ch = c.ch ∧ c'.sid = c.sid ∧ c'.stream = c.stream := by
    rintro x c c' rfl
    split <;> exact ⟨rfl, rfl, rfl⟩
  have hby : ∀ c, c ≠ ch → s'.byConn.get? c = s.byConn.get? c := by
    intro c hc
    rw [e0]
    dsimp only
    split
    · rw [get?_erase, if_neg (Ne.symm hc)]
    · rw [get?_insert, if_neg (Ne.symm hc)]
  have hbych : s'.byConn.get? ch = if l' = [] then none else some l' := by
    rw [e0]
    dsimp only
    split
    · rw [get?_erase, if_pos rfl]
    · rw [get?_insert_self]
  have hsib : ∀ x, l'[b.slot]? = some x → l[l.length - 1]? = some x ∧ b.slot ≠ l.length - 1 := by
    intro x hx
    rw [get'] at hx
    split at hx
    · next hlt2 => rw [if_pos rfl] at hx; exact ⟨hx, by omega⟩
    · cases hx
  refine ⟨?_, ?_, ?_, ?_, ?_, ?_, ?_, ?_, ?_⟩
  · rw [e0]; exact h.fine
  · intro c lc hlc
    by_cases hc : c = ch
    · subst hc
      rw [hbych] at hlc
      split at hlc
      · cases hlc
      · next hne =>
        injection hlc with hlc
        subst hlc
        refine ⟨hne, ?_, ?_⟩
        · rw [List.nodup_iff_getElem?_ne_getElem?]
          intro i j hij hj heq
          obtain ⟨x, hx⟩ : ∃ x, l'[j]? = some x := ⟨_, List.getElem?_eq_getElem hj⟩
          have hx2 := heq.trans hx
          rw [get'] at hx hx2
          split at hx
          · split at hx2
            · split at hx
              · split at hx2
                · omega
                · have := inj _ _ _ hx hx2; omega
              · split at hx2
                · have := inj _ _ _ hx hx2; omega
                · have := inj _ _ _ hx hx2; omega
            · cases hx2
          · cases hx
        · intro i x hx
          have hx0 := hx
          rw [get'] at hx
          split at hx
          · next hlt2 =>
            split at hx
            · next hi =>
              subst hi
              obtain ⟨c', hc', g1, g2⟩ := hsl _ _ hx
              have hxid : x ≠ id := by
                rintro rfl
                have := inj _ _ _ hx hli
                omega
              refine ⟨_, fwd x c' hxid hc', ?_, ?_⟩
              · rw [if_pos hx0]; exact g1
              · rw [if_pos hx0]
            · next hi =>
              obtain ⟨c', hc', g1, g2⟩ := hsl _ _ hx
              have hxid : x ≠ id := by
                rintro rfl
                exact hi (inj _ _ _ hx hli)
              have hns : l'[b.slot]? ≠ some x := by
                intro hs
                have := inj _ _ _ (hsib x hs).1 hx
                omega
              refine ⟨_, fwd x c' hxid hc', ?_, ?_⟩
              · rw [if_neg hns]; exact g1
              · rw [if_neg hns]; exact g2
          · cases hx
    · rw [hby c hc] at hlc
      obtain ⟨g1, g2, g3⟩ := h.slots c lc hlc
      refine ⟨g1, g2, fun i x hx => ?_⟩
      obtain ⟨c', hc', k1, k2⟩ := g3 i x hx
      have hxid : x ≠ id := by
        rintro rfl
        rw [hb] at hc'
        injection hc' with hc'
        subst hc'
        exact hc (k1.symm.trans hch)
      have hns : l'[b.slot]? ≠ some x := by
        intro hs
        obtain ⟨c2, hc2, k3, _⟩ := hsl _ _ (hsib x hs).1
        rw [hc'] at hc2
        injection hc2 with hc2
        subst hc2
        exact hc (k1.symm.trans k3)
      refine ⟨_, fwd x c' hxid hc', ?_, ?_⟩
      · rw [if_neg hns]; exact k1
      · rw [if_neg hns]; exact k2
  · intro x c' hc'
    obtain ⟨hx, c, hc, hcc⟩ := bwd x c' hc'
    obtain ⟨f1, f2, f3⟩ := field x c c' hcc
    left
    rcases h.placed x c hc with ⟨lc, hlc, hlx⟩ | ⟨hp, _⟩
    · by_cases hcc2 : c.ch = ch
      · rw [hcc2, hl] at hlc
        injection hlc with hlc
        subst hlc
        rw [f1, hcc2, hbych]
        have hne : c.slot ≠ b.slot := by
          intro e
          rw [e, hli] at hlx
          injection hlx with hlx
          exact hx hlx.symm
        have hlt3 := (List.getElem?_eq_some_iff.1 hlx).1
        have key : l'[c'.slot]? = some x := by
          rw [hcc]
          by_cases hs : l'[b.slot]? = some x
          · rw [if_pos hs]; exact hs
          · rw [if_neg hs, get']
            have : c.slot + 1 < l.length := by
              by_contra hcon
              apply hs
              rw [get', if_pos (by omega), if_pos rfl]
              rw [show l.length - 1 = c.slot by omega]; exact hlx
            rw [if_pos this, if_neg hne]; exact hlx
        refine ⟨l', ?_, key⟩
        rw [if_neg]
        rintro rfl
        simp at key
      · rw [f1, hby _ hcc2]
        refine ⟨lc, hlc, ?_⟩
        have hns : l'[b.slot]? ≠ some x := by
          intro hs
          obtain ⟨c2, hc2, k3, _⟩ := hsl _ _ (hsib x hs).1
          rw [hc] at hc2
          injection hc2 with hc2
          subst hc2
          exact hcc2 k3
        rw [hcc, if_neg hns]; exact hlx
    · rw [hd] at hp; cases hp
  · rw [e0]; exact h.doomNodup
  · rw [e0]; intro x hx; have hx : x ∈ s.doom := hx; rw [hd] at hx; cases hx
  · rw [e0]; intro x hx; have hx : x ∈ s.doom := hx; rw [hd] at hx; cases hx
  · intro c sid x hx
    have hx : (s.bySid.erase (ch, b.sid)).get? (c, sid) = some x := by rw [e0] at hx; exact hx
    rw [get?_erase] at hx
    split at hx
    · cases hx
    · next hne =>
      obtain ⟨c', hc', g1, g2⟩ := h.sids c sid x hx
      have hxid : x ≠ id := by
        rintro rfl
        rw [hb] at hc'
        injection hc' with hc'
        subst hc'
        exact hne (by rw [← g1, ← g2, hch])
      refine ⟨_, fwd x c' hxid hc', ?_, ?_⟩
      · rw [(field x c' _ rfl).1]; exact g1
      · rw [(field x c' _ rfl).2.1]; exact g2
  · intro x c' hc'
    obtain ⟨hx, c, hc, hcc⟩ := bwd x c' hc'
    obtain ⟨f1, f2, f3⟩ := field x c c' hcc
    rw [f1, f3, show s'.pool = s.pool by rw [e0]; rfl]
    exact h.conn x c hc
  · intro c e he hdr
    have he : s.pool.table.conns.get? c = some e := by rw [e0] at he; exact he
    rw [show s'.hot = s.hot by rw [e0]; rfl]
    rcases h.drained c e he hdr with g | g
    · exact .inl g
    · have hc : c ≠ ch := by
        rintro rfl
        rw [hl] at g; cases g
      rw [hby c hc]; exact .inr g

theorem PlaceInv.freeSlot {s : Quic I Q} (h : PlaceInv s) (ch : Nat) : PlaceInv (s.freeSlot ch) := by
  unfold Quic.freeSlot
  split
  · exact h
  · next e he => exact h.update (e' := { e with outbound := e.outbound - 1 }) rfl rfl rfl rfl rfl rfl he rfl rfl (.inr rfl)

/-- A dial keeps every connection and adds at most one. -/
theorem dial_keep {s : Quic I Q} (h : TableInv Q X.caps s.pool.table) (now : Nat) (peer : A) (x : Nat) :
    (s.pool.dial Q X.caps now peer).1.table.conns.get? x = s.pool.table.conns.get? x ∨
      s.pool.table.conns.get? x = none := by
  unfold Pool.dial
  rcases getOrDial_spec h s.pool.quinn now peer with ⟨c, e, h1, h2, _, h3⟩ | ⟨_, ⟨m, _, _, h3⟩ | ⟨_, ⟨_, h3⟩ | ⟨c, _, h3⟩⟩⟩
  · rw [h3]; exact .inl rfl
  · rw [h3]; exact .inl rfl
  · rw [h3]; exact .inl rfl
  · rw [h3]
    show (Map.insert s.pool.table.conns _ _).get? x = _ ∨ _
    rw [get?_insert]
    split
    · next e => exact .inr (e ▸ fresh_none ..)
    · exact .inl rfl

/-- An arriving datagram changes the connection it answers with, or adds one. -/
theorem datagram_keep {s : Quic I Q} (now : Nat) (src : A) (bytes : Bytes) (x : Nat) :
    (s.pool.datagram Q X.caps now src bytes).1.table.conns.get? x = s.pool.table.conns.get? x ∨
      s.pool.table.conns.get? x = none ∨
      ((s.pool.datagram Q X.caps now src bytes).2 = some x ∧ ∃ e e', s.pool.table.conns.get? x = some e ∧
        (s.pool.datagram Q X.caps now src bytes).1.table.conns.get? x = some e' ∧ e'.peer = e.peer ∧ e'.outbound = e.outbound) := by
  unfold Pool.datagram
  split
  · exact .inl rfl
  · next q ev _ =>
    unfold Pool.route
    split
    · next ch v _ =>
      unfold ConnTable.on
      show ((match s.pool.table.conns.get? ch with | none => _ | some e => _ : ConnTable Q.C Q.V A × Option Unit).1.conns.get? x = _) ∨ _
      cases he : s.pool.table.conns.get? ch with
      | none => exact .inl rfl
      | some e =>
        dsimp only
        by_cases hx : ch = x
        · subst hx
          right; right
          refine ⟨rfl, e, _, he, get?_insert_self .., ?_, ?_⟩
          · exact (via_fields e _).1
          · exact (touch_fields e).2.2.2.2.1
        · left
          rw [get?_insert, if_neg hx]
    · split
      · exact .inl rfl
      · split
        · exact .inl rfl
        · split
          · next q' c _ =>
            have : ∀ y, (ConnTable.insertAccepted Q s.pool.table c src).1.conns.get? y = s.pool.table.conns.get? y ∨
                s.pool.table.conns.get? y = none := by
              intro y
              unfold ConnTable.insertAccepted
              dsimp only
              have : ∀ t : ConnTable Q.C Q.V A, (if ConnTable.usable Q t src then t else { t with peers := t.peers.insert src (Q.vacant s.pool.table.conns.keys) }).conns = t.conns := by
                intro t; split <;> rfl
              rw [this]
              rw [get?_insert]
              split
              · next e => exact .inr (e ▸ fresh_none ..)
              · exact .inl rfl
            rcases this x with h | h
            · exact .inl h
            · exact .inr (.inl h)
          · exact .inl rfl
          · exact .inl rfl
    · exact .inl rfl

theorem PlaceInv.move (hS : Q.Sound) {a b : Quic I Q} (h : PlaceInv a) (hi : IdsInv cfg env X [] a) (hh' : HeldInv a)
    (hm : Move cfg env X T a b) : PlaceInv b := by
  have unbucket : ∀ x, a.pool.table.conns.get? x = none → a.byConn.get? x = none := by
    intro x hx
    cases hl : a.byConn.get? x with
    | none => rfl
    | some l => obtain ⟨e, he⟩ := h.bucket hl; rw [hx] at he; cases he
  have cold : a.hot = none → a.doom = [] := by
    intro hn
    cases hd : a.doom with
    | nil => rfl
    | cons x l =>
      obtain ⟨c, _, hc⟩ := h.doomed x (by rw [hd]; exact List.mem_cons_self)
      rw [hn] at hc; cases hc
  cases hm with
  | push src bytes => unfold pushIngress; split <;> exact h.still rfl rfl rfl rfl rfl rfl rfl
  | @commit id b0 ev rest b' now hb hev hr hb' =>
    exact h.put hb hb'.alike rfl rfl rfl rfl rfl rfl rfl
  | tweak hb hm => exact h.put hb hm.alike rfl rfl rfl rfl rfl rfl rfl
  | conn hc =>
    rcases hc with rfl | ⟨e, e', he, rfl, hp, _, _, _, _, hd⟩
    · exact h.still rfl rfl rfl rfl rfl rfl rfl
    · exact h.update rfl rfl rfl rfl rfl rfl he rfl hp hd
  | reconcile ch =>
    unfold ConnTable.reconcile
    split
    · exact h.still rfl rfl rfl rfl rfl rfl rfl
    · next e he =>
      obtain ⟨t1, t2, _⟩ := touch_fields (Q := Q) e
      split
      · exact h.still rfl rfl rfl rfl rfl rfl rfl
      · dsimp only
        split
        · exact h.update (e' := e.touch Q) rfl rfl rfl rfl rfl rfl he rfl t2 (.inr (by rw [t1]))
        · exact h.update (e' := { e.touch Q with pendingIndexed := false }) rfl rfl rfl rfl rfl rfl he rfl t2
            (.inr (by show Q.drained (e.touch Q).conn = _; rw [t1]))
  | dial now peer =>
    refine h.conns rfl rfl rfl rfl rfl (.inl rfl) ?_ ?_
    · intro id b _ e he
      rcases dial_keep hi.table now peer b.ch with hk | hk
      · exact ⟨e, by rw [hk]; exact he, rfl⟩
      · rw [hk] at he; cases he
    · intro x e' he' hdr
      rcases dial_keep hi.table now peer x with hk | hk
      · rw [hk] at he'; exact h.drained x e' he' hdr
      · exact .inr (unbucket x hk)
  | arrive now src bytes hn =>
    have hd := cold hn
    refine h.conns rfl rfl rfl rfl rfl (.inr hd) ?_ ?_
    · intro id b _ e he
      rcases datagram_keep (X := X) (s := a) now src bytes b.ch with hk | hk | ⟨_, f, f', hf, hf', hp, _⟩
      · exact ⟨e, by rw [hk]; exact he, rfl⟩
      · rw [hk] at he; cases he
      · rw [hf] at he
        injection he with he
        subst he
        exact ⟨f', hf', hp⟩
    · intro x e' he' hdr
      rcases datagram_keep (X := X) (s := a) now src bytes x with hk | hk | ⟨hx, _⟩
      · rw [hk] at he'
        rcases h.drained x e' he' hdr with g | g
        · rw [hn] at g; cases g
        · exact .inr g
      · exact .inr (unbucket x hk)
      · exact .inl hx
  | heat ch hh =>
    refine h.conns rfl rfl rfl rfl rfl ?_ (fun _ _ _ e he => ⟨e, he, rfl⟩) ?_
    · rcases hh with hh | hh
      · exact .inr (cold hh)
      · exact .inl hh.symm
    · intro x e he hdr
      rcases h.drained x e he hdr with g | g
      · rcases hh with hh | hh
        · rw [hh] at g; cases g
        · rw [hh] at g; exact .inl g
      · exact .inr g
  | cool hd hh =>
    refine h.conns rfl rfl rfl rfl rfl (.inr hd) (fun _ _ _ e he => ⟨e, he, rfl⟩) ?_
    intro x e he hdr
    rcases h.drained x e he hdr with g | g
    · exact .inr (hh x e g he hdr)
    · exact .inr g
  | reapConn ch hh =>
    unfold ConnTable.reapIfDrained
    split
    · exact h.still rfl rfl rfl rfl rfl rfl rfl
    · next e he =>
      split
      · exact h.still rfl rfl rfl rfl rfl rfl rfl
      · next hdr =>
        have hdr : Q.drained e.conn = true := by simpa using hdr
        have hbn : a.byConn.get? ch = none := by
          rcases h.drained ch e he hdr with g | g
          · rw [hh] at g; cases g
          · exact g
        refine h.conns rfl rfl rfl rfl rfl (.inl rfl) ?_ ?_
        · intro id b hb f hf
          refine ⟨f, ?_, rfl⟩
          show (a.pool.table.conns.erase ch).get? b.ch = some f
          rw [get?_erase, if_neg]
          · exact hf
          · intro hx
            rcases h.placed id b hb with ⟨l, hl, _⟩ | ⟨_, hp⟩
            · rw [← hx, hbn] at hl; cases hl
            · rw [hh] at hp; cases hp
        · intro x f hf hdr
          have hf : (a.pool.table.conns.erase ch).get? x = some f := hf
          rw [get?_erase] at hf
          split at hf
          · cases hf
          · exact h.drained x f hf hdr
  | forget ch hn =>
    refine h.still rfl ?_ rfl rfl rfl rfl rfl
    exact erase_absent (unbucket ch hn)
  | sieve _ => unfold takeDials; rw [sieve_eq]; exact h.still rfl rfl rfl rfl rfl rfl rfl
  | pollDial id peer deadline hp => unfold setTimer; rw [queueDial_eq]; exact h.still rfl rfl rfl rfl rfl rfl rfl
  | takeEntry d rest hh hl => rw [takeEntry_eq]; exact h.still rfl rfl rfl rfl rfl rfl rfl
  | repark d now hl =>
    obtain ⟨w, hw⟩ := repark_eq (X := X) a d now
    rw [hw]; exact h.still rfl rfl rfl rfl rfl rfl rfl
  | retire d hl => rw [retire_eq]; exact h.still rfl rfl rfl rfl rfl rfl rfl
  | dialLost now peer ch hd hn =>
    obtain ⟨e, he, _⟩ := dial_found hi.table hd
    rw [hn] at he
    cases he
  | mint d now ch sid e t st hl hd he hc ht' hst =>
    obtain ⟨h1, htm, i, h3, h4⟩ := minted_facts hst
    have hdm : d ∈ a.entries := by rw [entries_some hl]; simp
    have hpeer : st.peer = d.peer := by rw [h4]; exact (hi.agree d hdm i h3).1
    obtain ⟨e2, he2, hep⟩ := dial_found hi.table hd
    rw [he] at he2
    injection he2 with he2
    subst he2
    have hon : t = { (a.pool.dial Q X.caps now d.peer).1.table with
          conns := (a.pool.dial Q X.caps now d.peer).1.table.conns.insert ch (e.via Q Q.openBi).1 } ∧
        (e.via Q Q.openBi).2 = some sid := by
      unfold ConnTable.on at ht'
      rw [he] at ht'
      injection ht' with g1 g2
      injection g2 with g2
      exact ⟨g1.symm, g2⟩
    obtain ⟨rfl, hsid⟩ := hon
    obtain ⟨t1, t2, _⟩ := touch_fields (Q := Q) e
    have hnd : Q.drained (e.via Q Q.openBi).1.conn = false := by
      show Q.drained (Q.openBi (e.touch Q).conn).1 = false
      rw [hS.openBi, t1]
      cases hdr : Q.drained e.conn with
      | false => rfl
      | true =>
        have h5 := hS.open_closed _ (hS.drained_closed _ hdr)
        have h6 : (Q.openBi (e.touch Q).conn).2 = some sid := hsid
        rw [t1, h5] at h6; cases h6
    have hvp : (e.via Q Q.openBi).1.peer = e.peer := (via_fields e _).1
    generalize hv : (e.via Q Q.openBi).1 = v at hnd hvp
    generalize hP : (a.pool.dial Q X.caps now d.peer).1 = P at he
    -- the connections at the end
    let s1 : Quic I Q := { a with pool := { P with table :=
      { P.table with conns := (P.table.conns.insert ch v).insert ch { v with outbound := v.outbound + 1 } } } }
    have hk : ∀ x, P.table.conns.get? x = a.pool.table.conns.get? x ∨ a.pool.table.conns.get? x = none := by
      rw [← hP]; exact dial_keep hi.table now d.peer
    have hget : ∀ x, s1.pool.table.conns.get? x = if ch = x then some { v with outbound := v.outbound + 1 } else P.table.conns.get? x := by
      intro x
      show ((P.table.conns.insert ch v).insert ch { v with outbound := v.outbound + 1 }).get? x = _
      rw [get?_insert, get?_insert]
      split <;> rfl
    have p1 : PlaceInv s1 := by
      refine h.conns rfl rfl rfl rfl rfl (.inl rfl) ?_ ?_
      · intro id b _ f hf
        rw [hget]
        split
        · next hx =>
          refine ⟨_, rfl, ?_⟩
          rcases hk ch with g | g
          · rw [he, hx, hf] at g
            injection g with g
            subst g
            exact hvp
          · rw [hx, hf] at g; cases g
        · rcases hk b.ch with g | g
          · exact ⟨f, by rw [g]; exact hf, rfl⟩
          · rw [hf] at g; cases g
      · intro x f hf hdr
        rw [hget] at hf
        split at hf
        · injection hf with hf
          subst hf
          have hdr : Q.drained v.conn = true := hdr
          rw [hnd] at hdr; cases hdr
        · rcases hk x with g | g
          · rw [g] at hf; exact h.drained x f hf hdr
          · exact .inr (unbucket x g)
    have hnone : a.bridges.get? st.id = none := by
      rw [get?_eq_none_iff, h1]; exact hi.apart hdm
    refine p1.open (b := { QBridge.new st ch sid a.cmp cfg.maxStreamFrameSize X.label X.skipLabel true with
        slot := (a.bucketAt ch).length }) (id := st.id) (ch := ch) (sid := sid) hnone ?_ rfl rfl rfl rfl rfl ?_ rfl rfl rfl ?_
    · show (a.panicked || st.pollTimeout.isNone) = false
      rw [h.fine]
      cases hst2 : st.pollTimeout with
      | none => rw [hst2] at htm; cases htm
      | some _ => rfl
    · show (ConnTable.on Q { P.table with conns := P.table.conns.insert ch v } ch _).1 = s1.pool.table
      unfold ConnTable.on
      rw [get?_insert_self]
    · refine ⟨_, by rw [hget, if_pos rfl], ?_, fun hdr => ?_⟩
      · show v.peer = st.peer
        rw [hvp, hep, hpeer]
      · have hdr : Q.drained v.conn = true := hdr
        rw [hnd] at hdr; cases hdr
  | accept ch sid now e st hh hd he hc hst =>
    obtain ⟨h1, htm, hpe, _, _⟩ := accepted_facts hst
    have hnone : a.bridges.get? st.id = none := by
      rw [get?_eq_none_iff, h1]
      exact fun hm => hi.fresh (List.mem_append_right _ hm)
    refine h.open (b := { QBridge.new st ch sid a.cmp cfg.maxStreamFrameSize X.label X.skipLabel false with
        slot := (a.bucketAt ch).length }) (id := st.id) (ch := ch) (sid := sid) hnone ?_ rfl rfl rfl rfl rfl rfl rfl rfl rfl ?_
    · show (a.panicked || st.pollTimeout.isNone) = false
      rw [h.fine]
      cases hst2 : st.pollTimeout with
      | none => rw [hst2] at htm; cases htm
      | some _ => rfl
    · exact ⟨e, he, hpe.symm, fun _ => hh⟩
  | launch op id peer deadline kind hh hl hs _ => rw [launch_eq]; exact h.still rfl rfl rfl rfl rfl rfl rfl
  | takeBucket ch hh hd =>
    cases hl : a.byConn.get? ch with
    | none =>
      refine h.still rfl (erase_absent hl) rfl ?_ rfl rfl rfl
      unfold Quic.takeBucket
      dsimp only
      rw [hl, hd]
    | some l =>
      obtain ⟨g1, g2, g3⟩ := h.slots ch l hl
      generalize hs' : a.takeBucket ch = s'
      have e1 : s'.doom = l := by rw [← hs']; unfold Quic.takeBucket; dsimp only; rw [hl]
      have e2 : s'.byConn = a.byConn.erase ch := by rw [← hs']; rfl
      have e3 : s'.bridges = a.bridges := by rw [← hs']; rfl
      have e4 : s'.hot = some ch := by rw [← hs']; exact hh
      have e5 : s'.pool = a.pool := by rw [← hs']; rfl
      refine ⟨by rw [← hs']; exact h.fine, ?_, ?_, by rw [e1]; exact g2, ?_, ?_, by rw [← hs']; exact h.sids, by rw [← hs']; exact h.conn, ?_⟩
      · intro c lc hlc
        rw [e2, get?_erase] at hlc
        rw [e3]
        split at hlc
        · cases hlc
        · exact h.slots c lc hlc
      · intro x c hc
        rw [e3] at hc
        rw [e1, e2, e4]
        by_cases hx : c.ch = ch
        · right
          rw [hx]
          refine ⟨?_, rfl⟩
          rcases h.placed x c hc with ⟨l2, k1, k2⟩ | ⟨k, _⟩
          · rw [hx, hl] at k1
            injection k1 with k1
            subst k1
            exact List.mem_of_getElem? k2
          · rw [hd] at k; cases k
        · left
          rcases h.placed x c hc with ⟨l2, k1, k2⟩ | ⟨k, _⟩
          · exact ⟨l2, by rw [get?_erase, if_neg (Ne.symm hx)]; exact k1, k2⟩
          · rw [hd] at k; cases k
      · intro x hx
        rw [e1] at hx
        obtain ⟨i, hi⟩ := List.getElem?_of_mem hx
        obtain ⟨c, hc, k1, _⟩ := g3 i x hi
        exact ⟨c, by rw [e3]; exact hc, by rw [e4, k1]⟩
      · intro x hx c lc hlc hm
        rw [e1] at hx
        rw [e2, get?_erase] at hlc
        split at hlc
        · cases hlc
        · next hne =>
          obtain ⟨i, hi⟩ := List.getElem?_of_mem hx
          obtain ⟨j, hj⟩ := List.getElem?_of_mem hm
          obtain ⟨c1, hc1, k1, _⟩ := g3 i x hi
          obtain ⟨c2, hc2, k2, _⟩ := (h.slots c lc hlc).2.2 j x hj
          rw [hc1] at hc2
          injection hc2 with hc2
          subst hc2
          exact hne (k1.symm.trans k2)
      · intro c e he hdr
        rw [e5] at he
        rw [e4, e2]
        by_cases hc : c = ch
        · exact .inl (by rw [hc])
        · rcases h.drained c e he hdr with k | k
          · rw [hh] at k; exact .inl k
          · right
            rw [get?_erase]
            split
            · rfl
            · exact k
  | doomGone id rest hd hb =>
    obtain ⟨c, hc, _⟩ := h.doomed id (by rw [hd]; exact List.mem_cons_self)
    rw [hb] at hc; cases hc
  | reap id ch b lost hb hbt _ hl =>
    have hp : PlaceInv (a.preReap id b ch lost) := by
      have key : PlaceInv (if lost then { a.unindex id ch b.sid with doom := (a.unindex id ch b.sid).doom.tail }
          else (a.unindex id ch b.sid).unslot ch b.slot) := by
        cases lost with
        | true =>
          obtain ⟨hh, rest, hd⟩ := hl
          exact h.lost hb hh hd rfl rfl rfl (by show a.doom.tail = rest; rw [hd]; rfl) rfl rfl rfl
        | false =>
          obtain ⟨hch, hd⟩ := hl
          exact h.unslot hb hch hd
      unfold preReap
      dsimp only
      split
      · exact key.freeSlot ch
      · exact key
    rw [reapBridge_pre]
    obtain ⟨r1, r2, _⟩ := preReap_rest (X := X) a id b ch lost
    rcases complete_cases (cfg := cfg) (env := env) (a.preReap id b ch lost) id (!b.isFailed) with ⟨_, g⟩ | ⟨k, g1, g2, _⟩ | ⟨k, p, _, _, g⟩
    · rw [g]; exact hp
    · have := hh'.sync id
      rw [r1] at g1
      rw [r2] at g2
      rw [g1, g2] at this
      cases this
    · rw [g]; exact hp.still rfl rfl rfl rfl rfl rfl rfl
  | _ => exact h.still rfl rfl rfl rfl rfl rfl rfl

end Verif.Quic
