import Verif.Model.QuicConn
import Verif.Proof.Map
import Verif.Proof.Deadline
/-! Lemmas about the connection table of the QUIC node. -/
namespace Verif
open Map

/-- How many values of a map satisfy `P`. -/
def Map.tally {K V : Type} (m : Map K V) (P : V → Bool) : Nat := m.countP (fun e => P e.2)

namespace Map
variable {K V : Type} [DecidableEq K]

theorem tally_insert (m : Map K V) (k : K) (v : V) (P : V → Bool) :
    (m.insert k v).tally P + (match m.get? k with
      | some w => if P w then 1 else 0
      | none => 0) = m.tally P + if P v then 1 else 0 := by
  induction m with
  | nil => simp [insert, tally, get?, List.countP_cons]
  | cons x m ih =>
    obtain ⟨a, b⟩ := x
    simp only [insert, get?]
    by_cases h : a = k
    · simp only [h, if_pos]
      simp [tally, List.countP_cons]; omega
    · simp only [if_neg h]
      simp only [tally, List.countP_cons] at ih ⊢
      omega

theorem tally_erase (m : Map K V) (hn : m.NodupKeys) (k : K) (P : V → Bool) :
    (m.erase k).tally P + (match m.get? k with
      | some w => if P w then 1 else 0
      | none => 0) = m.tally P := by
  induction m with
  | nil => simp [erase, tally, get?]
  | cons x m ih =>
    obtain ⟨a, b⟩ := x
    rw [nodup_cons] at hn
    simp only [erase, get?]
    by_cases h : a = k
    · have he : List.filter (fun e : K × V => e.1 ≠ k) m = m := by
        rw [List.filter_eq_self]
        intro e he
        have := hn.1
        simp only [ne_eq, decide_not, Bool.not_eq_eq_eq_not, Bool.not_true, decide_eq_false_iff_not]
        intro hk
        apply this e.2
        rw [h, ← hk]
        exact he
      rw [List.filter_cons_of_neg (by simpa using h), he]
      simp only [h, if_pos]
      simp [tally, List.countP_cons]
    · rw [List.filter_cons_of_pos (by simpa using h)]
      simp only [if_neg h]
      have := ih hn.2
      simp only [erase] at this
      simp only [tally, List.countP_cons] at this ⊢
      omega

theorem tally_congr (m : Map K V) {P P' : V → Bool} (h : ∀ k v, (k, v) ∈ m → P v = P' v) :
    m.tally P = m.tally P' := by
  unfold tally
  apply List.countP_congr
  intro x hx
  rw [h x.1 x.2 hx]

theorem tally_le (m : Map K V) {P P' : V → Bool} (h : ∀ k v, (k, v) ∈ m → P v = true → P' v = true) :
    m.tally P ≤ m.tally P' := by
  unfold tally
  apply List.countP_mono_left
  intro x hx
  exact h x.1 x.2 hx

theorem length_erase_le (m : Map K V) (k : K) : (m.erase k).length ≤ m.length :=
  List.length_filter_le _ _

theorem length_insert_old {m : Map K V} {k : K} {v w : V} (h : m.get? k = some w) :
    (m.insert k v).length = m.length := by
  induction m with
  | nil => simp [get?] at h
  | cons x m ih =>
    obtain ⟨a, b⟩ := x
    simp only [get?] at h
    simp only [insert]
    split at h
    · next hk => simp [hk]
    · next hk => simp [hk, ih h]

end Map

variable {A : Type} [DecidableEq A] (Q : Quinn A)

/-- The facts kept about a connection table. -/
structure TableInv (caps : QCaps) (t : ConnTable Q.C Q.V A) : Prop where
  nc : t.conns.NodupKeys
  np : t.peers.NodupKeys
  route : ∀ p ch, t.peers.get? p = some ch → ∃ e, t.conns.get? ch = some e ∧ e.peer = p
  pend : ∀ src, t.pendingFrom Q src = t.conns.tally (fun e => e.pendingIndexed && decide (e.peer = src))
  pos : ∀ src n, t.pending.get? src = some n → 0 < n
  npd : t.pending.NodupKeys
  inb : ∀ ch e, t.conns.get? ch = some e → e.pendingIndexed = true → e.inbound = true
  half : ∀ ch e, t.conns.get? ch = some e → e.inbound = true → e.established = false → e.pendingIndexed = true
  cap : ∀ m, caps.maxConns = some m → t.conns.length ≤ m
  capP : ∀ m src, caps.maxPending = some m → t.pendingFrom Q src ≤ m

variable {Q} {caps : QCaps}

theorem TableInv.init : TableInv Q caps ({} : ConnTable Q.C Q.V A) where
  nc := nodup_nil
  np := nodup_nil
  route := by simp
  pend := by simp [ConnTable.pendingFrom, ConnTable.count, Map.tally]
  pos := by simp
  npd := nodup_nil
  inb := by simp
  half := by simp
  cap := by simp
  capP := by simp [ConnTable.pendingFrom, ConnTable.count]

omit [DecidableEq A] in
theorem touch_fields (e : QConn Q.C Q.V A) : (e.touch Q).conn = e.conn ∧ (e.touch Q).peer = e.peer ∧
    (e.touch Q).inbound = e.inbound ∧ (e.touch Q).pendingIndexed = e.pendingIndexed ∧
    (e.touch Q).outbound = e.outbound ∧ (e.touch Q).pendingEvents = e.pendingEvents ∧
    (e.established = true → (e.touch Q).established = true) ∧
    (e.touch Q).established = (e.established || (!Q.handshaking e.conn && !Q.closed e.conn)) := by
  unfold QConn.touch
  cases h : e.established <;> split <;> simp_all

theorem fresh_none (m : Map Nat (QConn Q.C Q.V A)) : m.get? (Q.vacant m.keys) = none := by
  rw [get?_eq_none_iff]
  exact Q.vacant_fresh _

/-- Rewriting one entry, its peer and its place in the count of half-open connections unchanged. -/
theorem TableInv.update {t : ConnTable Q.C Q.V A} (I : TableInv Q caps t) {ch : Nat} {e e' : QConn Q.C Q.V A}
    (he : t.conns.get? ch = some e) (hp : e'.peer = e.peer) (hi : e'.inbound = e.inbound)
    (hx : e'.pendingIndexed = e.pendingIndexed) (hs : e.established = true → e'.established = true) :
    TableInv Q caps { t with conns := t.conns.insert ch e' } where
  nc := nodup_insert I.nc _ _
  np := I.np
  route := by
    intro p c hc
    obtain ⟨f, hf, hfp⟩ := I.route p c hc
    rw [get?_insert]
    split
    · next h => subst h; rw [he] at hf; injection hf with hf; exact ⟨e', rfl, by rw [hp, hf, hfp]⟩
    · exact ⟨f, hf, hfp⟩
  pend := by
    intro src
    have h := tally_insert t.conns ch e' (fun e => e.pendingIndexed && decide (e.peer = src))
    rw [he] at h
    simp only [hp, hx] at h
    have := I.pend src
    simp only [ConnTable.pendingFrom] at this ⊢
    omega
  pos := I.pos
  npd := I.npd
  inb := by
    intro c f hf hfx
    simp only [get?_insert] at hf
    split at hf
    · injection hf with hf; subst hf; rw [hi]; exact I.inb _ _ he (by rw [← hx]; exact hfx)
    · exact I.inb _ _ hf hfx
  half := by
    intro c f hf hfi hfe
    simp only [get?_insert] at hf
    split at hf
    · injection hf with hf
      subst hf
      rw [hx]
      refine I.half _ _ he (by rw [← hi]; exact hfi) ?_
      cases h : e.established with
      | false => rfl
      | true => rw [hs h] at hfe; cases hfe
    · exact I.half _ _ hf hfi hfe
  cap := by intro m hm; rw [length_insert_old he]; exact I.cap m hm
  capP := I.capP

theorem TableInv.unroute {t : ConnTable Q.C Q.V A} (I : TableInv Q caps t) (p : A) :
    TableInv Q caps { t with peers := t.peers.erase p } where
  nc := I.nc
  np := nodup_erase I.np _
  route := by
    intro q c hc
    simp only [get?_erase] at hc
    split at hc
    · cases hc
    · exact I.route q c hc
  pend := I.pend
  pos := I.pos
  npd := I.npd
  inb := I.inb
  half := I.half
  cap := I.cap
  capP := I.capP

/-- A new connection of this node's own. -/
theorem TableInv.dialled {t : ConnTable Q.C Q.V A} (I : TableInv Q caps t) (c : Q.C) (p : A)
    (hcap : ∀ m, caps.maxConns = some m → t.conns.length < m) :
    TableInv Q caps { t with
      conns := t.conns.insert (Q.vacant t.conns.keys) { conn := c, peer := p, inbound := false, pendingIndexed := false }
      peers := t.peers.insert p (Q.vacant t.conns.keys) } := by
  have hf := fresh_none (Q := Q) t.conns
  constructor
  case nc => exact nodup_insert I.nc _ _
  case np => exact nodup_insert I.np _ _
  case route =>
    intro q ch hc
    simp only [get?_insert] at hc ⊢
    split at hc
    · next h => subst h; injection hc with hc; rw [if_pos hc]; exact ⟨_, rfl, rfl⟩
    · obtain ⟨e, he, hp⟩ := I.route q ch hc
      rw [if_neg (by rintro rfl; rw [hf] at he; cases he)]
      exact ⟨e, he, hp⟩
  case pend =>
    intro src
    have h := tally_insert t.conns (Q.vacant t.conns.keys)
      ({ conn := c, peer := p, inbound := false, pendingIndexed := false } : QConn Q.C Q.V A)
      (fun e => e.pendingIndexed && decide (e.peer = src))
    rw [hf] at h
    have := I.pend src
    simp only [ConnTable.pendingFrom] at this ⊢
    simp at h
    omega
  case pos => exact I.pos
  case npd => exact I.npd
  case inb =>
    intro c f hf' hx
    simp only [get?_insert] at hf'
    split at hf'
    · injection hf' with hf'; subst hf'; cases hx
    · exact I.inb _ _ hf' hx
  case half =>
    intro c f hf' hi he
    simp only [get?_insert] at hf'
    split at hf'
    · injection hf' with hf'; subst hf'; cases hi
    · exact I.half _ _ hf' hi he
  case cap =>
    intro m hm
    rw [length_insert_new hf]
    exact hcap m hm
  case capP => exact I.capP

theorem count_insert (m : Map A Nat) (p src : A) (n : Nat) :
    ConnTable.count (m.insert p n) src = if p = src then n else ConnTable.count m src := by
  simp only [ConnTable.count, get?_insert]
  by_cases h : p = src
  · simp [h]
  · simp [h]

theorem count_erase (m : Map A Nat) (p src : A) :
    ConnTable.count (m.erase p) src = if p = src then 0 else ConnTable.count m src := by
  simp only [ConnTable.count, get?_erase]
  by_cases h : p = src
  · simp [h]
  · simp [h]

theorem count_of_get? {m : Map A Nat} {p : A} {n : Nat} (h : m.get? p = some n) : ConnTable.count m p = n := by
  simp only [ConnTable.count, h]

/-- An accepted connection. -/
theorem TableInv.accepted {t : ConnTable Q.C Q.V A} (I : TableInv Q caps t) (c : Q.C) (p : A)
    (hcap : ∀ m, caps.maxConns = some m → t.conns.length < m)
    (hcapP : ∀ m, caps.maxPending = some m → t.pendingFrom Q p < m) :
    TableInv Q caps (t.insertAccepted Q c p).1 := by
  have hf := fresh_none (Q := Q) t.conns
  have I1 : TableInv Q caps { t with
      conns := t.conns.insert (Q.vacant t.conns.keys) { conn := c, peer := p, inbound := true, pendingIndexed := true }
      pending := t.pending.insert p (ConnTable.count t.pending p + 1) } := by
    constructor
    case nc => exact nodup_insert I.nc _ _
    case np => exact I.np
    case route =>
      intro q ch hc
      obtain ⟨e, he, hp⟩ := I.route q ch hc
      simp only [get?_insert]
      rw [if_neg (by rintro rfl; rw [hf] at he; cases he)]
      exact ⟨e, he, hp⟩
    case pend =>
      intro src
      have h := tally_insert t.conns (Q.vacant t.conns.keys)
        ({ conn := c, peer := p, inbound := true, pendingIndexed := true } : QConn Q.C Q.V A)
        (fun e => e.pendingIndexed && decide (e.peer = src))
      rw [hf] at h
      have h2 := I.pend src
      simp only [ConnTable.pendingFrom, count_insert] at h2 ⊢
      by_cases hps : p = src
      · subst hps
        simp at h ⊢
        omega
      · simp [hps] at h ⊢
        omega
    case pos =>
      intro src n hn
      simp only [get?_insert] at hn
      split at hn
      · injection hn with hn; omega
      · exact I.pos _ _ hn
    case npd => exact nodup_insert I.npd _ _
    case inb =>
      intro c f hf' hx
      simp only [get?_insert] at hf'
      split at hf'
      · injection hf' with hf'; subst hf'; rfl
      · exact I.inb _ _ hf' hx
    case half =>
      intro c f hf' hi he
      simp only [get?_insert] at hf'
      split at hf'
      · injection hf' with hf'; subst hf'; rfl
      · exact I.half _ _ hf' hi he
    case cap =>
      intro m hm
      rw [length_insert_new hf]
      exact hcap m hm
    case capP =>
      intro m src hm
      simp only [ConnTable.pendingFrom, count_insert]
      split
      · have := hcapP m hm; simp only [ConnTable.pendingFrom] at this; omega
      · exact I.capP m src hm
  unfold ConnTable.insertAccepted
  simp only
  split
  · exact I1
  ·
    constructor
    case nc => exact I1.nc
    case np => exact nodup_insert I.np _ _
    case route =>
      intro q ch hc
      simp only [get?_insert] at hc
      split at hc
      · next h =>
        subst h
        injection hc with hc
        subst hc
        exact ⟨{ conn := c, peer := p, inbound := true, pendingIndexed := true }, by simp only [get?_insert, if_pos], rfl⟩
      · exact I1.route q ch hc
    case pend => exact I1.pend
    case pos => exact I1.pos
    case npd => exact I1.npd
    case inb => exact I1.inb
    case half => exact I1.half
    case cap => exact I1.cap
    case capP => exact I1.capP

theorem pending_release {m : Map A Nat} (hn : m.NodupKeys) (p : A) (hp : ∃ n, m.get? p = some n)
    (hpos : ∀ src n, m.get? src = some n → 0 < n) :
    (ConnTable.release m p).NodupKeys ∧ (∀ src n, (ConnTable.release m p).get? src = some n → 0 < n) ∧
    ∀ src, ConnTable.count (ConnTable.release m p) src + (if p = src then 1 else 0) = ConnTable.count m src := by
  obtain ⟨n, hn'⟩ := hp
  have h0 := hpos _ _ hn'
  have hc := count_of_get? hn'
  unfold ConnTable.release
  rw [hn']
  simp only
  split
  · next h1 =>
    refine ⟨nodup_erase hn _, ?_, ?_⟩
    · intro src k hk
      rw [get?_erase] at hk
      split at hk
      · cases hk
      · exact hpos _ _ hk
    · intro src
      rw [count_erase]
      by_cases hs : p = src
      · subst hs; simp [hc]; omega
      · simp [hs]
  · next h1 =>
    refine ⟨nodup_insert hn _ _, ?_, ?_⟩
    · intro src k hk
      rw [get?_insert] at hk
      split at hk
      · injection hk with hk; omega
      · exact hpos _ _ hk
    · intro src
      rw [count_insert]
      by_cases hs : p = src
      · subst hs; simp [hc]; omega
      · simp [hs]

theorem TableInv.counted {t : ConnTable Q.C Q.V A} (I : TableInv Q caps t) {ch : Nat} {e : QConn Q.C Q.V A}
    (he : t.conns.get? ch = some e) (hx : e.pendingIndexed = true) : ∃ n, t.pending.get? e.peer = some n := by
  cases h : t.pending.get? e.peer with
  | some n => exact ⟨n, rfl⟩
  | none =>
    have := I.pend e.peer
    simp only [ConnTable.pendingFrom, ConnTable.count, h] at this
    have h2 := tally_erase t.conns I.nc ch (fun f => f.pendingIndexed && decide (f.peer = e.peer))
    rw [he] at h2
    simp [hx] at h2
    omega

/-- Dropping an entry together with its share of the counts and its route. -/
theorem TableInv.reaped {t : ConnTable Q.C Q.V A} (I : TableInv Q caps t) {ch : Nat} {e : QConn Q.C Q.V A}
    (he : t.conns.get? ch = some e) :
    TableInv Q caps
      { conns := t.conns.erase ch
        pending := if e.pendingIndexed then ConnTable.release t.pending e.peer else t.pending
        peers := if t.peers.get? e.peer = some ch then t.peers.erase e.peer else t.peers } := by
  have hrel : (if e.pendingIndexed then ConnTable.release t.pending e.peer else t.pending).NodupKeys ∧
      (∀ src n, (if e.pendingIndexed then ConnTable.release t.pending e.peer else t.pending).get? src = some n → 0 < n) ∧
      ∀ src, ConnTable.count (if e.pendingIndexed then ConnTable.release t.pending e.peer else t.pending) src + (if e.pendingIndexed && decide (e.peer = src) then 1 else 0) = t.pendingFrom Q src := by
    cases hx : e.pendingIndexed with
    | false => refine ⟨by simpa using I.npd, by simpa using I.pos, by simp [ConnTable.pendingFrom]⟩
    | true =>
      obtain ⟨h1, h2, h3⟩ := pending_release I.npd e.peer (I.counted he hx) I.pos
      refine ⟨by simpa using h1, by simpa using h2, ?_⟩
      intro src
      have := h3 src
      simpa [ConnTable.pendingFrom] using this
  constructor
  case nc => exact nodup_erase I.nc _
  case np =>
    simp only
    split
    · exact nodup_erase I.np _
    · exact I.np
  case route =>
    intro p c hc
    simp only at hc ⊢
    have hc' : t.peers.get? p = some c ∧ c ≠ ch := by
      split at hc
      · next h =>
        rw [get?_erase] at hc
        split at hc
        · cases hc
        · next hne =>
          refine ⟨hc, ?_⟩
          rintro rfl
          obtain ⟨f, hf, hfp⟩ := I.route _ _ hc
          rw [he] at hf; injection hf with hf
          exact hne (by rw [hf, hfp])
      · next h =>
        refine ⟨hc, ?_⟩
        rintro rfl
        obtain ⟨f, hf, hfp⟩ := I.route _ _ hc
        rw [he] at hf; injection hf with hf
        rw [hf, hfp] at h
        exact h hc
    obtain ⟨f, hf, hfp⟩ := I.route _ _ hc'.1
    refine ⟨f, ?_, hfp⟩
    rw [get?_erase, if_neg (fun h => hc'.2 h.symm)]
    exact hf
  case pend =>
    intro src
    have h := tally_erase t.conns I.nc ch (fun f => f.pendingIndexed && decide (f.peer = src))
    rw [he] at h
    have h2 := hrel.2.2 src
    have h3 := I.pend src
    simp only [ConnTable.pendingFrom] at h h2 h3 ⊢
    omega
  case pos => exact hrel.2.1
  case npd => exact hrel.1
  case inb =>
    intro c f hf hx
    simp only [get?_erase] at hf
    split at hf
    · cases hf
    · exact I.inb _ _ hf hx
  case half =>
    intro c f hf hi hx
    simp only [get?_erase] at hf
    split at hf
    · cases hf
    · exact I.half _ _ hf hi hx
  case cap => intro m hm; exact Nat.le_trans (length_erase_le _ _) (I.cap m hm)
  case capP =>
    intro m src hm
    have := I.capP m src hm
    have h2 := hrel.2.2 src
    simp only [ConnTable.pendingFrom] at h2 this ⊢
    omega

theorem TableInv.reap {t : ConnTable Q.C Q.V A} (I : TableInv Q caps t) (q : Q.E) (ch : Nat) :
    TableInv Q caps (t.reapIfDrained Q q ch).1 := by
  unfold ConnTable.reapIfDrained
  cases he : t.conns.get? ch with
  | none => exact I
  | some e =>
    simp only
    split
    · exact I
    · exact I.reaped he

theorem TableInv.reconciled {t : ConnTable Q.C Q.V A} (I : TableInv Q caps t) (ch : Nat) :
    TableInv Q caps (t.reconcile Q ch) := by
  unfold ConnTable.reconcile
  cases he : t.conns.get? ch with
  | none => exact I
  | some e =>
    simp only
    obtain ⟨t1, t2, t3, t4, t5, t6, t7, t8⟩ := touch_fields (Q := Q) e
    split
    · exact I
    · next hx =>
      have hx : e.pendingIndexed = true := by simpa using hx
      split
      · exact I.update he t2 t3 t4 t7
      · next hest =>
        have hest : (e.touch Q).established = true := by simpa using hest
        obtain ⟨h1, h2, h3⟩ := pending_release I.npd e.peer (I.counted he hx) I.pos
        rw [t2]
        constructor
        case nc => exact nodup_insert I.nc _ _
        case np => exact I.np
        case route =>
          intro p c hc
          obtain ⟨f, hf, hfp⟩ := I.route p c hc
          simp only [get?_insert]
          split
          · next h => subst h; rw [he] at hf; injection hf with hf; exact ⟨_, rfl, by simp only; rw [hf, hfp]⟩
          · exact ⟨f, hf, hfp⟩
        case pend =>
          intro src
          have h := tally_insert t.conns ch ({ e.touch Q with peer := e.peer, pendingIndexed := false } : QConn Q.C Q.V A)
            (fun f => f.pendingIndexed && decide (f.peer = src))
          rw [he] at h
          have h4 := h3 src
          have h5 := I.pend src
          simp only [ConnTable.pendingFrom] at h5 ⊢
          simp [hx] at h
          omega
        case pos => exact h2
        case npd => exact h1
        case inb =>
          intro c f hf hfx
          simp only [get?_insert] at hf
          split at hf
          · injection hf with hf; subst hf; cases hfx
          · exact I.inb _ _ hf hfx
        case half =>
          intro c f hf hfi hfe
          simp only [get?_insert] at hf
          split at hf
          · injection hf with hf; subst hf; rw [hest] at hfe; cases hfe
          · exact I.half _ _ hf hfi hfe
        case cap => intro m hm; rw [length_insert_old he]; exact I.cap m hm
        case capP =>
          intro m src hm
          have := I.capP m src hm
          have h4 := h3 src
          simp only [ConnTable.pendingFrom] at this ⊢
          omega

theorem TableInv.on {R : Type} {t : ConnTable Q.C Q.V A} (I : TableInv Q caps t) (ch : Nat)
    (f : QConn Q.C Q.V A → QConn Q.C Q.V A × R)
    (hp : ∀ e, (f e).1.peer = e.peer ∧ (f e).1.inbound = e.inbound ∧ (f e).1.pendingIndexed = e.pendingIndexed ∧
      (e.established = true → (f e).1.established = true)) : TableInv Q caps (t.on Q ch f).1 := by
  unfold ConnTable.on
  cases he : t.conns.get? ch with
  | none => exact I
  | some e => exact I.update he (hp e).1 (hp e).2.1 (hp e).2.2.1 (hp e).2.2.2

omit [DecidableEq A] in
theorem via_fields {R : Type} (e : QConn Q.C Q.V A) (f : Q.C → Q.C × R) :
    (e.via Q f).1.peer = e.peer ∧ (e.via Q f).1.inbound = e.inbound ∧ (e.via Q f).1.pendingIndexed = e.pendingIndexed ∧
      (e.established = true → (e.via Q f).1.established = true) := by
  obtain ⟨t1, t2, t3, t4, t5, t6, t7, t8⟩ := touch_fields (Q := Q) e
  exact ⟨t2, t3, t4, t7⟩

/-- What `get_or_dial` does, case by case. -/
theorem getOrDial_spec {t : ConnTable Q.C Q.V A} (I : TableInv Q caps t) (q : Q.E) (now : Nat) (p : A) :
    (∃ ch e, t.peers.get? p = some ch ∧ t.conns.get? ch = some e ∧ (Q.closed e.conn = false ∨ e.established = false) ∧
      t.getOrDial Q q now p caps.maxConns = (t, q, .ok ch)) ∨
    ((∀ ch e, t.peers.get? p = some ch → t.conns.get? ch = some e → Q.closed e.conn = true ∧ e.established = true) ∧
      ((∃ m, caps.maxConns = some m ∧ m ≤ t.conns.length ∧
          t.getOrDial Q q now p caps.maxConns = ({ t with peers := t.peers.erase p }, q, .error .atGlobalCap)) ∨
       ((∀ m, caps.maxConns = some m → t.conns.length < m) ∧
        (((Q.connect q now p).2 = none ∧
          t.getOrDial Q q now p caps.maxConns = ({ t with peers := t.peers.erase p }, (Q.connect q now p).1, .error .connect)) ∨
        (∃ c, (Q.connect q now p).2 = some c ∧
          t.getOrDial Q q now p caps.maxConns =
            ({ t with
                conns := t.conns.insert (Q.vacant t.conns.keys) { conn := c, peer := p, inbound := false, pendingIndexed := false }
                peers := (t.peers.erase p).insert p (Q.vacant t.conns.keys) },
             (Q.connect q now p).1, .ok (Q.vacant t.conns.keys))))))) := by
  have hd : ∀ t' : ConnTable Q.C Q.V A, t' = { t with peers := t.peers.erase p } →
      (∃ m, caps.maxConns = some m ∧ m ≤ t.conns.length ∧
          (if caps.maxConns.any (fun m => decide (m ≤ t'.conns.length)) then (t', q, .error QDialErr.atGlobalCap)
            else match Q.connect q now p with
              | (q, none) => (t', q, .error .connect)
              | (q, some c) =>
                ({ t' with conns := t'.conns.insert (Q.vacant t'.conns.keys) { conn := c, peer := p, inbound := false, pendingIndexed := false }
                           peers := t'.peers.insert p (Q.vacant t'.conns.keys) }, q, .ok (Q.vacant t'.conns.keys)) :
              ConnTable Q.C Q.V A × Q.E × Except QDialErr Nat) = ({ t with peers := t.peers.erase p }, q, .error .atGlobalCap)) ∨
       ((∀ m, caps.maxConns = some m → t.conns.length < m) ∧
        (((Q.connect q now p).2 = none ∧
          (if caps.maxConns.any (fun m => decide (m ≤ t'.conns.length)) then (t', q, .error QDialErr.atGlobalCap)
            else match Q.connect q now p with
              | (q, none) => (t', q, .error .connect)
              | (q, some c) =>
                ({ t' with conns := t'.conns.insert (Q.vacant t'.conns.keys) { conn := c, peer := p, inbound := false, pendingIndexed := false }
                           peers := t'.peers.insert p (Q.vacant t'.conns.keys) }, q, .ok (Q.vacant t'.conns.keys)) :
              ConnTable Q.C Q.V A × Q.E × Except QDialErr Nat) = ({ t with peers := t.peers.erase p }, (Q.connect q now p).1, .error .connect)) ∨
        (∃ c, (Q.connect q now p).2 = some c ∧
          (if caps.maxConns.any (fun m => decide (m ≤ t'.conns.length)) then (t', q, .error QDialErr.atGlobalCap)
            else match Q.connect q now p with
              | (q, none) => (t', q, .error .connect)
              | (q, some c) =>
                ({ t' with conns := t'.conns.insert (Q.vacant t'.conns.keys) { conn := c, peer := p, inbound := false, pendingIndexed := false }
                           peers := t'.peers.insert p (Q.vacant t'.conns.keys) }, q, .ok (Q.vacant t'.conns.keys)) :
              ConnTable Q.C Q.V A × Q.E × Except QDialErr Nat) =
            ({ t with
                conns := t.conns.insert (Q.vacant t.conns.keys) { conn := c, peer := p, inbound := false, pendingIndexed := false }
                peers := (t.peers.erase p).insert p (Q.vacant t.conns.keys) },
             (Q.connect q now p).1, .ok (Q.vacant t.conns.keys))))) := by
    rintro t' rfl
    cases hm : caps.maxConns with
    | none =>
      refine Or.inr ⟨by simp, ?_⟩
      rcases hc : Q.connect q now p with ⟨q', _ | c⟩
      · exact Or.inl ⟨rfl, by simp⟩
      · exact Or.inr ⟨c, rfl, by simp⟩
    | some m =>
      by_cases hle : m ≤ t.conns.length
      · exact Or.inl ⟨m, rfl, hle, by simp [hle]⟩
      · refine Or.inr ⟨by intro m' h; injection h with h; omega, ?_⟩
        rcases hc : Q.connect q now p with ⟨q', _ | c⟩
        · exact Or.inl ⟨rfl, by simp [hle]⟩
        · exact Or.inr ⟨c, rfl, by simp [hle]⟩
  unfold ConnTable.getOrDial
  simp only
  cases hp : t.peers.get? p with
  | none =>
    refine Or.inr ⟨by simp, ?_⟩
    have he : t.peers.erase p = t.peers := by
      unfold Map.erase
      rw [List.filter_eq_self]
      intro x hx
      have := get?_eq_none_iff.1 hp
      simp only [ne_eq, decide_not, Bool.not_eq_eq_eq_not, Bool.not_true, decide_eq_false_iff_not]
      rintro rfl
      exact this (mem_keys.2 ⟨_, hx⟩)
    have h := hd t (by rw [he])
    exact h
  | some ch =>
    obtain ⟨e, he, hep⟩ := I.route p ch hp
    simp only [he]
    split
    · next h =>
      refine Or.inl ⟨ch, e, rfl, he, ?_, rfl⟩
      simpa using h
    · next h =>
      refine Or.inr ⟨?_, hd _ rfl⟩
      intro ch' e' h1 h2
      injection h1 with h1
      subst h1
      rw [he] at h2
      injection h2 with h2
      subst h2
      simpa using h

theorem TableInv.dial {t : ConnTable Q.C Q.V A} (I : TableInv Q caps t) (q : Q.E) (now : Nat) (p : A) :
    TableInv Q caps (t.getOrDial Q q now p caps.maxConns).1 := by
  rcases getOrDial_spec I q now p with ⟨ch, e, _, _, _, h⟩ | ⟨_, ⟨m, _, _, h⟩ | ⟨hc, ⟨_, h⟩ | ⟨c, _, h⟩⟩⟩
  · rw [h]; exact I
  · rw [h]; exact I.unroute p
  · rw [h]; exact I.unroute p
  · rw [h]; exact (I.unroute p).dialled c p hc

theorem TableInv.route_event {p : Pool Q} (I : TableInv Q caps p.table) (now : Nat) (src : A)
    (ev : DgramEv A Q.V Q.N) : TableInv Q caps (Pool.route Q caps p now src ev).1.table := by
  unfold Pool.route
  cases ev with
  | event ch v => exact I.on ch _ (fun e => via_fields e _)
  | response dst b => exact I
  | incoming n =>
    simp only
    split
    · exact I
    · next h1 =>
      split
      · exact I
      · next h2 =>
        have hc : ∀ m, caps.maxConns = some m → p.table.conns.length < m := by
          intro m hm; simp [hm] at h1; exact h1
        have hp : ∀ m, caps.maxPending = some m → p.table.pendingFrom Q src < m := by
          intro m hm; simp [hm] at h2; exact h2
        rcases Q.accept p.quinn n now with ⟨q, _ | c⟩
        · next r => cases r <;> exact I
        · exact I.accepted c src hc hp

theorem earliestExcluding2_spec {K : Type} [DecidableEq K] {s : DeadlineIndex K} (I : DeadlineIndex.Inv s) (a b : K) (d : Nat) :
    s.earliestExcluding2 a b = some d ↔
      (∃ k, k ≠ a ∧ k ≠ b ∧ s.deadlineOf k = some d) ∧
      ∀ k d', k ≠ a → k ≠ b → s.deadlineOf k = some d' → d ≤ d' := by
  have hmem : ∀ k x, s.deadlineOf k = some x ↔ ∃ q, ((x, q), k) ∈ s.byDeadline := by
    intro k x
    unfold DeadlineIndex.deadlineOf
    constructor
    · intro h
      rw [Option.map_eq_some_iff] at h
      obtain ⟨⟨d, q⟩, h1, h2⟩ := h
      simp only at h2; subst h2
      exact ⟨q, mem_of_get? ((I.mirror d q k).2 h1)⟩
    · rintro ⟨q, h⟩
      rw [(I.mirror x q k).1 (get?_of_mem I.nd h)]
      rfl
  have hs := DeadlineIndex.firstKey_spec (s.byDeadline.filter (fun e => decide (e.2 ≠ a ∧ e.2 ≠ b)))
  unfold DeadlineIndex.earliestExcluding2
  cases hf : DeadlineIndex.firstKey (s.byDeadline.filter (fun e => decide (e.2 ≠ a ∧ e.2 ≠ b))) with
  | none =>
    rw [hf] at hs
    simp only [Option.map_none, reduceCtorEq, false_iff]
    rintro ⟨⟨k, ha, hb, hk⟩, _⟩
    obtain ⟨q, hq⟩ := (hmem k d).1 hk
    have : ((d, q), k) ∈ s.byDeadline.filter (fun e => decide (e.2 ≠ a ∧ e.2 ≠ b)) :=
      List.mem_filter.2 ⟨hq, by simp [ha, hb]⟩
    rw [hs] at this
    cases this
  | some k0 =>
    rw [hf] at hs
    obtain ⟨⟨v, hv⟩, hmin⟩ := hs
    have hv' := List.mem_filter.1 hv
    have hab : v ≠ a ∧ v ≠ b := by simpa using hv'.2
    simp only [Option.map_some, Option.some.injEq]
    constructor
    · rintro rfl
      refine ⟨⟨v, hab.1, hab.2, (hmem v k0.1).2 ⟨k0.2, hv'.1⟩⟩, ?_⟩
      intro k d' ha hb hk
      obtain ⟨q, hq⟩ := (hmem k d').1 hk
      exact hmin _ (List.mem_filter.2 ⟨hq, by simp [ha, hb]⟩)
    · rintro ⟨⟨k, ha, hb, hk⟩, hmin'⟩
      obtain ⟨q, hq⟩ := (hmem k d).1 hk
      have h1 := hmin _ (List.mem_filter.2 ⟨hq, by simp [ha, hb]⟩)
      have h2 := hmin' v k0.1 hab.1 hab.2 ((hmem v k0.1).2 ⟨k0.2, hv'.1⟩)
      simp only at h1
      omega

theorem earliestExcluding2_none {K : Type} [DecidableEq K] {s : DeadlineIndex K} (I : DeadlineIndex.Inv s) (a b : K) :
    s.earliestExcluding2 a b = none ↔ ∀ k, k ≠ a → k ≠ b → s.deadlineOf k = none := by
  constructor
  · intro h k ha hb
    cases hk : s.deadlineOf k with
    | none => rfl
    | some d =>
      exfalso
      have hs := DeadlineIndex.firstKey_spec (s.byDeadline.filter (fun e => decide (e.2 ≠ a ∧ e.2 ≠ b)))
      unfold DeadlineIndex.earliestExcluding2 at h
      rw [Option.map_eq_none_iff] at h
      rw [h] at hs
      unfold DeadlineIndex.deadlineOf at hk
      rw [Option.map_eq_some_iff] at hk
      obtain ⟨⟨d', q⟩, h1, _⟩ := hk
      have hm := mem_of_get? ((I.mirror d' q k).2 h1)
      have : ((d', q), k) ∈ s.byDeadline.filter (fun e => decide (e.2 ≠ a ∧ e.2 ≠ b)) :=
        List.mem_filter.2 ⟨hm, by simp [ha, hb]⟩
      rw [hs] at this
      cases this
  · intro h
    cases hd : s.earliestExcluding2 a b with
    | none => rfl
    | some d =>
      obtain ⟨⟨k, ha, hb, hk⟩, _⟩ := (earliestExcluding2_spec I a b d).1 hd
      rw [h k ha hb] at hk
      cases hk

end Verif
