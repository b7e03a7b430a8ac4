import Verif.Proof.EnginePipe
/-
Every socket is in exactly one place, and is used as it should.
-/
namespace Verif
namespace Map
variable {K V : Type} [DecidableEq K]

theorem erase_none {m : Map K V} {k : K} (h : get? m k = none) : erase m k = m := by
  have h := get?_eq_none_iff.1 h
  simp only [erase, List.filter_eq_self]
  intro e he
  have : e.1 ≠ k := fun e1 => h (e1 ▸ List.mem_map_of_mem he)
  simpa using this

theorem perm_get {m : Map K V} (hn : NodupKeys m) {k : K} {v : V} (h : get? m k = some v) :
    List.Perm m ((k, v) :: erase m k) := by
  induction m with
  | nil => simp at h
  | cons e m ih =>
    obtain ⟨a, b⟩ := e
    rw [get?_cons] at h
    obtain ⟨h1, h2⟩ := nodup_cons.1 hn
    by_cases e : a = k
    · subst e
      simp only [if_true, Option.some.injEq] at h
      subst h
      have h3 : erase ((a, b) :: m) a = m := by
        have h4 : get? m a = none := get?_eq_none_iff.2 (fun hm => (mem_keys.1 hm).elim h1)
        have h5 := erase_none h4
        simp only [erase] at h5 ⊢
        rw [List.filter_cons_of_neg (by simp), h5]
      rw [h3]
    · rw [if_neg e] at h
      have h3 : erase ((a, b) :: m) k = (a, b) :: erase m k := by
        simp only [erase]
        rw [List.filter_cons_of_pos (by simpa using e)]
      rw [h3]
      exact ((ih h2 h).cons _).trans (List.Perm.swap _ _ _)

theorem perm_insert {m : Map K V} (hn : NodupKeys m) (k : K) (v : V) :
    List.Perm (insert m k v) ((k, v) :: erase m k) := by
  have h := perm_get (nodup_insert hn k v) (get?_insert_self m k v)
  rwa [erase_insert] at h
end Map

namespace Engine
open Verif Coord Spec
variable {I A C S : Type} [DecidableEq C]

/-- The sockets of the connections. -/
def soc (m : Map Nat (Wired A C)) : List C := m.filterMap (fun e => e.2.socket)

theorem soc_cons (x : Nat) (k : Wired A C) (m : Map Nat (Wired A C)) (a : C) :
    (soc ((x, k) :: m)).count a = k.socket.toList.count a + (soc m).count a := by
  cases h : k.socket <;> simp [soc, List.filterMap_cons, h, List.count_cons, Nat.add_comm]

theorem soc_perm {m m' : Map Nat (Wired A C)} (h : List.Perm m m') (a : C) : (soc m).count a = (soc m').count a :=
  (h.filterMap _).count_eq a

theorem soc_get {m : Map Nat (Wired A C)} (hn : m.NodupKeys) {x : Nat} {k : Wired A C} (h : m.get? x = some k) (a : C) :
    (soc m).count a = k.socket.toList.count a + (soc (m.erase x)).count a := by
  rw [soc_perm (Map.perm_get hn h), soc_cons]

theorem soc_insert {m : Map Nat (Wired A C)} (hn : m.NodupKeys) (x : Nat) (k : Wired A C) (a : C) :
    (soc (m.insert x k)).count a = k.socket.toList.count a + (soc (m.erase x)).count a := by
  rw [soc_perm (Map.perm_insert hn x k), soc_cons]

theorem soc_put {m : Map Nat (Wired A C)} (hn : m.NodupKeys) {x : Nat} {k k' : Wired A C} (h : m.get? x = some k)
    (hs : k'.socket = k.socket) (a : C) : (soc (m.insert x k')).count a = (soc m).count a := by
  rw [soc_insert hn, soc_get hn h, hs]

omit [DecidableEq C] in
theorem soc_promote (m : Map Nat (Wired A C)) (up : Wired A C → Bool) :
    soc (m.map (fun e => if up e.2 then (e.1, { e.2 with state := SockState.established }) else e)) = soc m := by
  simp only [soc, List.filterMap_map]
  apply List.filterMap_congr
  intro e _
  simp only [Function.comp]
  split <;> rfl

theorem keys_perm_insert {c : C} {m : Map C Nat} (h : m.get? c = none) (d : Nat) (a : C) :
    (m.insert c d).keys.count a = m.keys.count a + [c].count a := by
  rw [Map.keys_insert]
  have : c ∉ m.keys := Map.get?_eq_none_iff.1 h
  rw [if_neg this, List.count_append]

theorem keys_perm_erase {m : Map C Nat} (hn : m.NodupKeys) {c : C} {d : Nat} (h : m.get? c = some d) (a : C) :
    m.keys.count a = [c].count a + (m.erase c).keys.count a := by
  have := ((Map.perm_get hn h).map Prod.fst).count_eq a
  simp only [Map.keys]
  rw [this, List.map_cons, ← List.count_append]
  rfl

/-- How often the engine holds a handle. -/
def held (s : Gear A C S) (a : C) : Nat :=
  s.pool.count a + s.listener.toList.count a + (soc s.conns).count a + s.closing.keys.count a

theorem held_sockets (g : Engine I A C S) (a : C) : (sockets g).count a = held (gear g) a := by
  simp only [sockets, held, List.count_append, gear, soc, Map.keys]

/-- Nothing is lost and nothing is doubled. -/
theorem eff_held {E : EEnv S C A} {s s' : Gear A C S} {o : Option (XOp I A × XOut I A)} (h : Eff E s o s')
    (hn : s.conns.NodupKeys) (hc : s.closing.NodupKeys) (h1 : ∀ a, held s a ≤ 1)
    (hsock : ∀ x k, s.conns.get? x = some k → k.state = .pendingDial → k.socket = none)
    (hfresh : ∀ x, (∃ op, o = some (op, .accepted (some x))) ∨ (∃ op peer sid, o = some (op, .action (some (.connect x peer sid)))) →
      s.conns.get? x = none) :
    s'.closing.NodupKeys ∧ ∀ a, held s' a = held s a := by
  have out : ∀ (x : Nat) (k : Wired A C) (c : C), s.conns.get? x = some k → k.socket = some c → s.closing.get? c = none := by
    intro x k c hk hs
    rw [Map.get?_eq_none_iff]
    intro hm
    have := h1 c
    have h2 : 1 ≤ (soc s.conns).count c := by rw [soc_get hn hk, hs]; simp
    have h3 : 1 ≤ s.closing.keys.count c := List.one_le_count_iff.2 hm
    simp only [held] at this
    omega
  cases h with
  | same => exact ⟨hc, fun _ => rfl⟩
  | datagram => exact ⟨hc, fun _ => rfl⟩
  | listen io c pool hl hp =>
    refine ⟨hc, fun a => ?_⟩
    have := hp.count_eq a
    simp only [held, hl, Option.toList_some, Option.toList_none, List.count_nil, List.count_cons] at this ⊢
    omega
  | refuse o io io' c hl =>
    refine ⟨hc, fun a => ?_⟩
    simp only [held, hl, Option.toList_some, Option.toList_none, List.count_append, List.count_nil]
    omega
  | accept io c peer x now hl =>
    refine ⟨hc, fun a => ?_⟩
    have h0 := hfresh x (.inl ⟨_, rfl⟩)
    simp only [held, hl, Option.toList_some, Option.toList_none, List.count_nil]
    rw [soc_insert hn, Map.erase_none h0]
    simp only [Option.toList_some]
    omega
  | connect x peer sid =>
    refine ⟨hc, fun a => ?_⟩
    have h0 := hfresh x (.inr ⟨_, _, _, rfl⟩)
    simp only [held]
    rw [soc_insert hn, Map.erase_none h0]
    simp
  | dialOk io x k c pool hk hst hp =>
    refine ⟨hc, fun a => ?_⟩
    have := hp.count_eq a
    have h2 := soc_get hn hk a
    rw [hsock x k hk hst] at h2
    simp only [held]
    rw [soc_insert hn]
    simp only [Option.toList_some, Option.toList_none, List.count_nil, List.count_cons] at this h2 ⊢
    omega
  | dialRefused o io io' x k c pool hk hst hp =>
    refine ⟨hc, fun a => ?_⟩
    have := hp.count_eq a
    have h2 := soc_get hn hk a
    rw [hsock x k hk hst] at h2
    simp only [held, Option.toList_none, List.count_nil, List.count_cons, List.count_append] at this h2 ⊢
    omega
  | dialError o io io' io'' x k c pool hk hst hp =>
    refine ⟨hc, fun a => ?_⟩
    have := hp.count_eq a
    have h2 := soc_get hn hk a
    rw [hsock x k hk hst] at h2
    simp only [held, Option.toList_none, List.count_nil, List.count_cons, List.count_append] at this h2 ⊢
    omega
  | downNone => exact ⟨hc, fun _ => rfl⟩
  | shutdown o x k hk => exact ⟨hc, fun a => by simp only [held]; rw [soc_put hn hk]; rfl⟩
  | closing o x k c mark deadline hk => exact ⟨hc, fun a => by simp only [held]; rw [soc_put hn hk]; rfl⟩
  | forget o x k hk hs =>
    refine ⟨hc, fun a => ?_⟩
    have h2 := soc_get hn hk a
    rw [hs] at h2
    simp only [held, Option.toList_none, List.count_nil] at h2 ⊢
    omega
  | gone o io io' x k c hk hs =>
    refine ⟨hc, fun a => ?_⟩
    have h2 := soc_get hn hk a
    rw [hs] at h2
    simp only [held, Option.toList_some, List.count_append] at h2 ⊢
    omega
  | reset o io io' x k c hk hs =>
    refine ⟨hc, fun a => ?_⟩
    have h2 := soc_get hn hk a
    rw [hs] at h2
    simp only [held, Option.toList_some, List.count_append] at h2 ⊢
    omega
  | windShut o x k c deadline hk hs =>
    refine ⟨Map.nodup_insert hc _ _, fun a => ?_⟩
    have h2 := soc_get hn hk a
    rw [hs] at h2
    simp only [held]
    rw [keys_perm_insert (out x k c hk hs)]
    simp only [Option.toList_some] at h2
    omega
  | windDown o io x k c deadline hk hs =>
    refine ⟨Map.nodup_insert hc _ _, fun a => ?_⟩
    have h2 := soc_get hn hk a
    rw [hs] at h2
    simp only [held]
    rw [keys_perm_insert (out x k c hk hs)]
    simp only [Option.toList_some] at h2
    omega
  | fetch x peer b k hk => exact ⟨hc, fun a => by simp only [held]; rw [soc_put hn hk]; rfl⟩
  | lost => exact ⟨hc, fun _ => rfl⟩
  | read => exact ⟨hc, fun _ => rfl⟩
  | eof io x k c now r hk => exact ⟨hc, fun a => by simp only [held]; rw [soc_put hn hk]; rfl⟩
  | write x k c out ws hk => exact ⟨hc, fun a => by simp only [held]; rw [soc_put hn hk]; rfl⟩
  | promote up => exact ⟨hc, fun a => by simp only [held]; rw [soc_promote]⟩
  | shut io x k c hk => exact ⟨hc, fun a => by simp only [held]; rw [soc_put hn hk]; rfl⟩
  | progress x k mark deadline hk => exact ⟨hc, fun a => by simp only [held]; rw [soc_put hn hk]; rfl⟩
  | reap io io' c d a hd =>
    refine ⟨Map.nodup_erase hc _, fun a => ?_⟩
    have h2 := keys_perm_erase hc hd a
    simp only [held, List.count_append]
    omega

/-! ### What the sockets are used for -/

/-- Where a handle is, and what it is used for there. -/
def Where (s : Gear A C S) (c : C) (u : Use) : Prop :=
  (c ∈ s.pool ∧ u = .idle) ∨ (s.listener = some c ∧ u = .listening) ∨
  (∃ x k, s.conns.get? x = some k ∧ k.socket = some c ∧ u = .serving x (decide (k.state = .halfClosed))) ∨
  (c ∈ s.closing.keys ∧ ∃ x, u = .serving x true)

theorem where_other {s s' : Gear A C S} {c : C} {u : Use} (hw : Where s c u) (hp : c ∈ s.pool → c ∈ s'.pool)
    (hl : s.listener = some c → s'.listener = some c)
    (hc : ∀ x k, s.conns.get? x = some k → k.socket = some c →
      ∃ k', s'.conns.get? x = some k' ∧ k'.socket = some c ∧ (k'.state = .halfClosed ↔ k.state = .halfClosed))
    (hk : c ∈ s.closing.keys → c ∈ s'.closing.keys) : Where s' c u := by
  rcases hw with ⟨h1, h2⟩ | ⟨h1, h2⟩ | ⟨x, k, h1, h2, h3⟩ | ⟨h1, h2⟩
  · exact .inl ⟨hp h1, h2⟩
  · exact .inr (.inl ⟨hl h1, h2⟩)
  · obtain ⟨k', h4, h5, h6⟩ := hc x k h1 h2
    refine .inr (.inr (.inl ⟨x, k', h4, h5, ?_⟩))
    rw [h3]; simp only [h6]
  · exact .inr (.inr (.inr ⟨hk h1, h2⟩))

theorem count_conns {m : Map Nat (Wired A C)} (hn : m.NodupKeys) {x : Nat} {k : Wired A C} {c : C} (hk : m.get? x = some k)
    (hs : k.socket = some c) : 1 ≤ (soc m).count c := by rw [soc_get hn hk, hs]; simp

theorem where_pool {s : Gear A C S} (hn : s.conns.NodupKeys) {c : C} (h1 : held s c ≤ 1) (hp : c ∈ s.pool) {u : Use} (hw : Where s c u) :
    u = .idle := by
  have h2 : 1 ≤ s.pool.count c := List.one_le_count_iff.2 hp
  simp only [held] at h1
  rcases hw with ⟨_, h⟩ | ⟨h, _⟩ | ⟨x, k, h, h3, _⟩ | ⟨h, _⟩
  · exact h
  · rw [h] at h1; simp at h1; omega
  · have := count_conns hn h h3; omega
  · have : 1 ≤ s.closing.keys.count c := List.one_le_count_iff.2 h; omega

theorem where_listener {s : Gear A C S} (hn : s.conns.NodupKeys) {c : C} (h1 : held s c ≤ 1) (hp : s.listener = some c) {u : Use}
    (hw : Where s c u) : u = .listening := by
  simp only [held, hp, Option.toList_some, List.count_singleton_self] at h1
  rcases hw with ⟨h, _⟩ | ⟨_, h⟩ | ⟨x, k, h, h3, _⟩ | ⟨h, _⟩
  · have : 1 ≤ s.pool.count c := List.one_le_count_iff.2 h; omega
  · exact h
  · have := count_conns hn h h3; omega
  · have : 1 ≤ s.closing.keys.count c := List.one_le_count_iff.2 h; omega

theorem where_conn {s : Gear A C S} (hn : s.conns.NodupKeys) {c : C} (h1 : held s c ≤ 1) {x : Nat} {k : Wired A C}
    (hk : s.conns.get? x = some k) (hs : k.socket = some c) {u : Use} (hw : Where s c u) :
    u = .serving x (decide (k.state = .halfClosed)) := by
  have h2 := count_conns hn hk hs
  simp only [held] at h1
  rcases hw with ⟨h, _⟩ | ⟨h, _⟩ | ⟨y, k', h, h3, h4⟩ | ⟨h, _⟩
  · have : 1 ≤ s.pool.count c := List.one_le_count_iff.2 h; omega
  · rw [h] at h1; simp at h1; omega
  · by_cases e : y = x
    · subst e; rw [hk] at h; cases h; exact h4
    · exfalso
      have h5 := soc_get hn hk c
      have h6 : (s.conns.erase x).get? y = some k' := by rw [Map.get?_erase, if_neg (fun h => e h.symm)]; exact h
      have h7 := count_conns (Map.nodup_erase hn x) h6 h3
      rw [hs] at h5
      simp at h5
      omega
  · have : 1 ≤ s.closing.keys.count c := List.one_le_count_iff.2 h; omega

theorem where_closing {s : Gear A C S} (hn : s.conns.NodupKeys) {c : C} (h1 : held s c ≤ 1) (hp : c ∈ s.closing.keys) {u : Use}
    (hw : Where s c u) : ∃ x, u = .serving x true := by
  have h2 : 1 ≤ s.closing.keys.count c := List.one_le_count_iff.2 hp
  simp only [held] at h1
  rcases hw with ⟨h, _⟩ | ⟨h, _⟩ | ⟨x, k, h, h3, _⟩ | ⟨_, h⟩
  · have : 1 ≤ s.pool.count c := List.one_le_count_iff.2 h; omega
  · rw [h] at h1; simp at h1; omega
  · have := count_conns hn h h3; omega
  · exact h

theorem useAfter_append (c : C) (u : Use) (l l' : List (S × Act A C)) :
    useAfter c u (l ++ l') = (useAfter c u l).bind (fun u => useAfter c u l') := by
  have key : ∀ (l' : List (S × Act A C)) (o : Option Use),
      l'.foldl (fun o e => if handleOf e.2 = some c then o.bind (fun u => u.next e.2) else o) o =
        o.bind (fun u => useAfter c u l') := by
    intro l' o
    cases o with
    | none =>
      simp only [Option.bind_none]
      induction l' with
      | nil => rfl
      | cons e l ih => rw [List.foldl_cons]; split <;> exact ih
    | some u => rfl
  rw [useAfter, List.foldl_append, key]
  rfl

theorem useAfter_other (c : C) (u : Use) (l : List (S × Act A C)) (h : ∀ e ∈ l, handleOf e.2 ≠ some c) :
    useAfter c u l = some u := by
  induction l with
  | nil => rfl
  | cons e l ih =>
    have h0 := h e List.mem_cons_self
    have : useAfter c u (e :: l) = useAfter c u l := by simp only [useAfter, List.foldl_cons, if_neg h0]
    rw [this]
    exact ih (fun e he => h e (List.mem_cons_of_mem _ he))

theorem useAfter_cons (c : C) (u : Use) (e : S × Act A C) (l : List (S × Act A C)) (h : handleOf e.2 = some c) :
    useAfter c u (e :: l) = (u.next e.2).bind (fun u => useAfter c u l) := by
  have := useAfter_append c u [e] l
  simp only [List.singleton_append] at this
  rw [this]
  simp [useAfter, h]

theorem useAfter_writes (c : C) (x : Nat) (ws : List (S × Bytes)) :
    useAfter c (.serving x false) (ws.map (fun w => (w.1, (Act.write x c w.2 : Act A C)))) = some (.serving x false) := by
  induction ws with
  | nil => rfl
  | cons w ws ih =>
    rw [List.map_cons, useAfter_cons _ _ _ _ rfl]
    simp only [Use.next, if_true, Option.bind_some]
    exact ih

/-- What a handle has been used for so far fits where it is. -/
def Used (start : C → Use) (s : Gear A C S) (c : C) : Prop :=
  ∃ u, useAfter c (start c) s.log = some u ∧ Where s c u

theorem Used.go {start : C → Use} {s s' : Gear A C S} {c : C} (h : Used start s c) (es : List (S × Act A C))
    (hl : s'.log = s.log ++ es) (h2 : ∀ u, Where s c u → ∃ u', useAfter c u es = some u' ∧ Where s' c u') :
    Used start s' c := by
  obtain ⟨u, h1, hw⟩ := h
  obtain ⟨u', h3, h4⟩ := h2 u hw
  exact ⟨u', by rw [hl, useAfter_append, h1, Option.bind_some, h3], h4⟩

/-- The acts of a move are about no handle, or all about one. -/
theorem Used.by {start : C → Use} {s s' : Gear A C S} {c c0 : C} (h : Used start s c) (es : List (S × Act A C))
    (hl : s'.log = s.log ++ es) (hes : ∀ e ∈ es, handleOf e.2 = none ∨ handleOf e.2 = some c0)
    (ho : c ≠ c0 → ∀ u, Where s c u → Where s' c u)
    (hm : c = c0 → ∀ u, Where s c u → ∃ u', useAfter c u es = some u' ∧ Where s' c u') : Used start s' c := by
  by_cases e : c = c0
  · exact h.go es hl (hm e)
  · refine h.go es hl (fun u hw => ⟨u, useAfter_other c u es (fun x hx => ?_), ho e u hw⟩)
    rcases hes x hx with h | h
    · rw [h]; simp
    · rw [h]; intro h2; cases h2; exact e rfl

theorem mem_of_perm_ne {l l' : List C} {c c0 : C} (hp : l.Perm (c0 :: l')) (hne : c ≠ c0) (h : c ∈ l) : c ∈ l' := by
  rcases List.mem_cons.1 (hp.mem_iff.1 h) with h | h
  · exact absurd h hne
  · exact h

theorem eff_used {E : EEnv S C A} {s s' : Gear A C S} {o : Option (XOp I A × XOut I A)} (h : Eff E s o s')
    (hn : s.conns.NodupKeys) {c : C} (h1 : held s c ≤ 1)
    (hsock : ∀ x k, s.conns.get? x = some k → k.state = .pendingDial → k.socket = none)
    (hdry : ∀ x k, s.conns.get? x = some k → k.state = .halfClosed → k.out = [])
    (hfresh : ∀ x, (∃ op, o = some (op, .accepted (some x))) ∨ (∃ op peer sid, o = some (op, .action (some (.connect x peer sid)))) →
      s.conns.get? x = none) {start : C → Use} (hu : Used start s c) : Used start s' c := by
  have keepc : ∀ x k, s.conns.get? x = some k → k.socket = some c → ∃ k', s.conns.get? x = some k' ∧ k'.socket = some c ∧
      (k'.state = .halfClosed ↔ k.state = .halfClosed) := fun x k h1 h2 => ⟨k, h1, h2, Iff.rfl⟩
  have putc : ∀ (y : Nat) (k0 k1 : Wired A C), s.conns.get? y = some k0 → k1.socket = k0.socket →
      (k0.socket ≠ some c ∨ (k1.state = .halfClosed ↔ k0.state = .halfClosed)) →
      ∀ x k, s.conns.get? x = some k → k.socket = some c → ∃ k', (s.conns.insert y k1).get? x = some k' ∧
        k'.socket = some c ∧ (k'.state = .halfClosed ↔ k.state = .halfClosed) := by
    intro y k0 k1 hy hs hst x k hk hc
    rw [Map.get?_insert]
    by_cases e : y = x
    · subst e
      rw [hy] at hk; cases hk
      refine ⟨k1, by simp, by rw [hs]; exact hc, ?_⟩
      rcases hst with h | h
      · exact absurd hc h
      · exact h
    · exact ⟨k, by simp [e, hk], hc, Iff.rfl⟩
  have newc : ∀ (y : Nat) (k1 : Wired A C), s.conns.get? y = none →
      ∀ x k, s.conns.get? x = some k → k.socket = some c → ∃ k', (s.conns.insert y k1).get? x = some k' ∧
        k'.socket = some c ∧ (k'.state = .halfClosed ↔ k.state = .halfClosed) := by
    intro y k1 hy x k hk hc
    have e : y ≠ x := by rintro rfl; rw [hy] at hk; cases hk
    exact ⟨k, by rw [Map.get?_insert, if_neg e]; exact hk, hc, Iff.rfl⟩
  have freec : ∀ (y : Nat) (k0 : Wired A C), s.conns.get? y = some k0 → k0.socket ≠ some c →
      ∀ x k, s.conns.get? x = some k → k.socket = some c → ∃ k', (s.conns.erase y).get? x = some k' ∧
        k'.socket = some c ∧ (k'.state = .halfClosed ↔ k.state = .halfClosed) := by
    intro y k0 hy hne x k hk hc
    have e : y ≠ x := by rintro rfl; rw [hy] at hk; cases hk; exact hne hc
    exact ⟨k, by rw [Map.get?_erase, if_neg e]; exact hk, hc, Iff.rfl⟩
  have sne : ∀ {k0 : Wired A C} {c0 : C}, k0.socket = some c0 → c ≠ c0 → k0.socket ≠ some c := by
    intro k0 c0 hs hne h; rw [hs] at h; cases h; exact hne rfl
  cases h with
  | same => exact hu
  | datagram io dst b _ =>
    exact hu.by (c0 := c) [(io, .datagram dst b)] rfl (by simp [handleOf]) (fun e => absurd rfl e)
      (fun _ u hw => ⟨u, by simp [useAfter, handleOf], where_other hw id id keepc id⟩)
  | listen io c0 pool hl hp =>
    refine hu.by (c0 := c0) [(io, .listen c0)] rfl (by simp [handleOf])
      (fun e u hw => where_other hw (mem_of_perm_ne hp e) (fun h => by rw [hl] at h; cases h) keepc id) (fun e u hw => ?_)
    subst e
    have := where_pool hn h1 (hp.mem_iff.2 List.mem_cons_self) hw
    subst this
    exact ⟨.listening, by simp [useAfter, handleOf, Use.next], .inr (.inl ⟨rfl, rfl⟩)⟩
  | refuse o io io' c0 hl =>
    refine hu.by (c0 := c0) [(io, .abort c0), (io', .free c0)] rfl (by simp [handleOf])
      (fun e u hw => where_other hw (fun h => List.mem_append_left _ h) (fun h => ?_) keepc id) (fun e u hw => ?_)
    · rw [hl] at h; cases h; exact absurd rfl e
    · subst e
      have := where_listener hn h1 hl hw
      subst this
      exact ⟨.idle, by simp [useAfter, handleOf, Use.next], .inl ⟨by simp, rfl⟩⟩
  | accept io c0 peer x now hl =>
    have h0 := hfresh x (.inl ⟨_, rfl⟩)
    refine hu.by (c0 := c0) [(io, .accept x c0 peer)] rfl (by simp [handleOf])
      (fun e u hw => where_other hw id (fun h => ?_) (newc x _ h0) id) (fun e u hw => ?_)
    · rw [hl] at h; cases h; exact absurd rfl e
    · subst e
      have := where_listener hn h1 hl hw
      subst this
      exact ⟨.serving x false, by simp [useAfter, handleOf, Use.next],
        .inr (.inr (.inl ⟨x, _, Map.get?_insert_self _ _ _, rfl, by simp⟩))⟩
  | connect x peer sid =>
    have h0 := hfresh x (.inr ⟨_, _, _, rfl⟩)
    exact hu.go [] (List.append_nil _).symm (fun u hw => ⟨u, rfl, where_other hw id id (newc x _ h0) id⟩)
  | dialOk io x k c0 pool hk hst hp =>
    have hns := hsock x k hk hst
    refine hu.by (c0 := c0) [(io, .connect x c0 k.peer true)] rfl (by simp [handleOf])
      (fun e u hw => where_other hw (mem_of_perm_ne hp e) id (fun y k' hy hc => ?_) id) (fun e u hw => ?_)
    · have e : x ≠ y := by rintro rfl; rw [hk] at hy; cases hy; rw [hns] at hc; cases hc
      exact ⟨k', by rw [Map.get?_insert, if_neg e]; exact hy, hc, Iff.rfl⟩
    · subst e
      have := where_pool hn h1 (hp.mem_iff.2 List.mem_cons_self) hw
      subst this
      exact ⟨.serving x false, by simp [useAfter, handleOf, Use.next],
        .inr (.inr (.inl ⟨x, _, Map.get?_insert_self _ _ _, rfl, by simp⟩))⟩
  | dialRefused o io io' x k c0 pool hk hst hp =>
    have hns := hsock x k hk hst
    refine hu.by (c0 := c0) [(io, .abort c0), (io', .free c0)] rfl (by simp [handleOf])
      (fun e u hw => where_other hw (fun h => List.mem_append_left _ (mem_of_perm_ne hp e h)) id
        (freec x k hk (by rw [hns]; simp)) id) (fun e u hw => ?_)
    subst e
    have := where_pool hn h1 (hp.mem_iff.2 List.mem_cons_self) hw
    subst this
    exact ⟨.idle, by simp [useAfter, handleOf, Use.next], .inl ⟨by simp, rfl⟩⟩
  | dialError o io io' io'' x k c0 pool hk hst hp =>
    have hns := hsock x k hk hst
    refine hu.by (c0 := c0) [(io, .connect x c0 k.peer false), (io', .abort c0), (io'', .free c0)] rfl (by simp [handleOf])
      (fun e u hw => where_other hw (fun h => List.mem_append_left _ (mem_of_perm_ne hp e h)) id
        (freec x k hk (by rw [hns]; simp)) id) (fun e u hw => ?_)
    subst e
    have := where_pool hn h1 (hp.mem_iff.2 List.mem_cons_self) hw
    subst this
    exact ⟨.idle, by simp [useAfter, handleOf, Use.next], .inl ⟨by simp, rfl⟩⟩
  | downNone => exact hu
  | shutdown o x k hk =>
    exact hu.go [] (List.append_nil _).symm (fun u hw => ⟨u, rfl, where_other hw id id (putc x k _ hk rfl (.inr Iff.rfl)) id⟩)
  | closing o x k c0 mark deadline hk hs hst =>
    exact hu.go [] (List.append_nil _).symm (fun u hw => ⟨u, rfl, where_other hw id id
      (putc x k _ hk rfl (.inr (by simp [hst]))) id⟩)
  | forget o x k hk hs =>
    exact hu.go [] (List.append_nil _).symm (fun u hw => ⟨u, rfl, where_other hw id id
      (freec x k hk (by rw [hs]; simp)) id⟩)
  | gone o io io' x k c0 hk hs =>
    refine hu.by (c0 := c0) [(io, .gone c0), (io', .free c0)] rfl (by simp [handleOf])
      (fun e u hw => where_other hw (fun h => List.mem_append_left _ h) id (freec x k hk (sne hs e)) id) (fun e u hw => ?_)
    subst e
    have := where_conn hn h1 hk hs hw
    subst this
    exact ⟨.idle, by simp [useAfter, handleOf, Use.next], .inl ⟨by simp, rfl⟩⟩
  | reset o io io' x k c0 hk hs =>
    refine hu.by (c0 := c0) [(io, .abort c0), (io', .free c0)] rfl (by simp [handleOf])
      (fun e u hw => where_other hw (fun h => List.mem_append_left _ h) id (freec x k hk (sne hs e)) id) (fun e u hw => ?_)
    subst e
    have := where_conn hn h1 hk hs hw
    subst this
    exact ⟨.idle, by simp [useAfter, handleOf, Use.next], .inl ⟨by simp, rfl⟩⟩
  | windShut o x k c0 deadline hk hs hst =>
    refine hu.by (c0 := c0) [] (List.append_nil _).symm (by simp)
      (fun e u hw => where_other hw id id (freec x k hk (sne hs e)) (fun h => ?_)) (fun e u hw => ?_)
    · rw [Map.mem_keys_iff] at h ⊢
      simp only [Map.get?_insert]
      split
      · rfl
      · exact h
    · subst e
      have := where_conn hn h1 hk hs hw
      subst this
      refine ⟨_, rfl, .inr (.inr (.inr ⟨?_, x, by simp [hst]⟩))⟩
      rw [Map.mem_keys_iff]; simp [Map.get?_insert_self]
  | windDown o io x k c0 deadline hk hs hst =>
    refine hu.by (c0 := c0) [(io, .fin x c0)] rfl (by simp [handleOf])
      (fun e u hw => where_other hw id id (freec x k hk (sne hs e)) (fun h => ?_)) (fun e u hw => ?_)
    · rw [Map.mem_keys_iff] at h ⊢
      simp only [Map.get?_insert]
      split
      · rfl
      · exact h
    · subst e
      have := where_conn hn h1 hk hs hw
      subst this
      refine ⟨.serving x true, by simp [useAfter, handleOf, Use.next, hst], .inr (.inr (.inr ⟨?_, x, rfl⟩))⟩
      rw [Map.mem_keys_iff]; simp [Map.get?_insert_self]
  | fetch x peer b k hk =>
    exact hu.go [] (List.append_nil _).symm (fun u hw => ⟨u, rfl, where_other hw id id (putc x k _ hk rfl (.inr Iff.rfl)) id⟩)
  | lost io x peer b hk =>
    exact hu.by (c0 := c) [(io, .lost x b)] rfl (by simp [handleOf]) (fun e => absurd rfl e)
      (fun _ u hw => ⟨u, by simp [useAfter, handleOf], where_other hw id id keepc id⟩)
  | read io x k c0 b now r hk hs =>
    refine hu.by (c0 := c0) [(io, .read x c0 b)] rfl (by simp [handleOf])
      (fun e u hw => where_other hw id id keepc id) (fun e u hw => ?_)
    subst e
    have := where_conn hn h1 hk hs hw
    subst this
    exact ⟨_, by simp [useAfter, handleOf, Use.next], where_other hw id id keepc id⟩
  | eof io x k c0 now r hk hs =>
    refine hu.by (c0 := c0) [(io, .eof x c0)] rfl (by simp [handleOf])
      (fun e u hw => where_other hw id id (putc x k _ hk rfl (.inr Iff.rfl)) id) (fun e u hw => ?_)
    subst e
    have := where_conn hn h1 hk hs hw
    subst this
    exact ⟨_, by simp [useAfter, handleOf, Use.next], where_other hw id id (putc x k _ hk rfl (.inr Iff.rfl)) id⟩
  | write x k c0 out ws hk hs ho =>
    have hst : k.state ≠ .halfClosed := fun e => ho (hdry x k hk e)
    refine hu.by (c0 := c0) (ws.map (fun w => (w.1, Act.write x c0 w.2))) rfl (fun e he => by
        obtain ⟨w, _, rfl⟩ := List.mem_map.1 he; exact .inr rfl)
      (fun e u hw => where_other hw id id (putc x k _ hk rfl (.inr Iff.rfl)) id) (fun e u hw => ?_)
    subst e
    have := where_conn hn h1 hk hs hw
    subst this
    refine ⟨.serving x false, ?_, ?_⟩
    · simp only [hst, decide_false]; exact useAfter_writes c x ws
    · exact .inr (.inr (.inl ⟨x, _, Map.get?_insert_self _ _ _, hs, by simp [hst]⟩))
  | promote up hup =>
    refine hu.go [] (List.append_nil _).symm (fun u hw => ⟨u, rfl, where_other hw id id (fun x k hk hc => ?_) id⟩)
    refine ⟨_, (get_promote up x).trans (by rw [hk]; rfl), ?_, ?_⟩
    · simp only []
      split <;> exact hc
    · simp only []
      split
      · next h => simp [hup k h]
      · exact Iff.rfl
  | shut io x k c0 hk hs hf hst =>
    refine hu.by (c0 := c0) [(io, .fin x c0)] rfl (by simp [handleOf])
      (fun e u hw => where_other hw id id (putc x k _ hk rfl (.inl (sne hs e))) id) (fun e u hw => ?_)
    subst e
    have := where_conn hn h1 hk hs hw
    subst this
    exact ⟨.serving x true, by simp [useAfter, handleOf, Use.next, hst],
      .inr (.inr (.inl ⟨x, _, Map.get?_insert_self _ _ _, hs, by simp⟩))⟩
  | progress x k mark deadline hk =>
    exact hu.go [] (List.append_nil _).symm (fun u hw => ⟨u, rfl, where_other hw id id (putc x k _ hk rfl (.inr Iff.rfl)) id⟩)
  | reap io io' c0 d a hd ha =>
    refine hu.by (c0 := c0) [(io, a), (io', .free c0)] rfl (by rcases ha with rfl | rfl <;> simp [handleOf])
      (fun e u hw => where_other hw (fun h => List.mem_append_left _ h) id keepc (fun h => ?_)) (fun e u hw => ?_)
    · rw [Map.keys_erase, List.mem_filter]; exact ⟨h, by simpa using e⟩
    · subst e
      obtain ⟨x, rfl⟩ := where_closing hn h1 (by rw [Map.mem_keys_iff, hd]; rfl) hw
      refine ⟨.idle, ?_, .inl ⟨by simp, rfl⟩⟩
      rcases ha with rfl | rfl <;> simp [useAfter, handleOf, Use.next]

/-- The new acts, each warranted, about handles the engine held. -/
theorem eff_acts {E : EEnv S C A} {s s' : Gear A C S} {o : Option (XOp I A × XOut I A)} (h : Eff E s o s')
    (hn : s.conns.NodupKeys) : ∃ es, s'.log = s.log ++ es ∧ (∀ e ∈ es, Warranted E e) ∧
      ∀ e ∈ es, ∀ c, handleOf e.2 = some c → 1 ≤ held s c := by
  have hpool : ∀ c, c ∈ s.pool → 1 ≤ held s c := by
    intro c h
    have : 1 ≤ s.pool.count c := List.one_le_count_iff.2 h
    simp only [held]; omega
  have hlis : ∀ c, s.listener = some c → 1 ≤ held s c := by
    intro c h
    simp only [held, h, Option.toList_some, List.count_singleton_self]; omega
  have hcon : ∀ x k c, s.conns.get? x = some k → k.socket = some c → 1 ≤ held s c := by
    intro x k c h h2
    have := count_conns hn h h2
    simp only [held]; omega
  have hclo : ∀ c d, s.closing.get? c = some d → 1 ≤ held s c := by
    intro c d h
    have : 1 ≤ s.closing.keys.count c := List.one_le_count_iff.2 (by rw [Map.mem_keys_iff, h]; rfl)
    simp only [held]; omega
  have hn' : ∃ es, s.log = s.log ++ es ∧ (∀ e ∈ es, Warranted E e) ∧ ∀ e ∈ es, ∀ c, handleOf e.2 = some c → 1 ≤ held s c :=
    ⟨[], (List.append_nil _).symm, by simp, by simp⟩
  cases h with
  | same => exact hn'
  | datagram io dst b hw => exact ⟨_, rfl, by simpa using hw, by simp [handleOf]⟩
  | listen io c pool hl hp hw =>
    exact ⟨_, rfl, by simpa using hw, by simpa [handleOf] using hpool c (hp.mem_iff.2 List.mem_cons_self)⟩
  | refuse o io io' c hl => exact ⟨_, rfl, by simp [Warranted], by simpa [handleOf] using hlis c hl⟩
  | accept io c peer x now hl hw => exact ⟨_, rfl, by simpa using hw, by simpa [handleOf] using hlis c hl⟩
  | connect => exact hn'
  | dialOk io x k c pool hk hst hp hw =>
    exact ⟨_, rfl, by simpa using hw, by simpa [handleOf] using hpool c (hp.mem_iff.2 List.mem_cons_self)⟩
  | dialRefused o io io' x k c pool hk hst hp =>
    exact ⟨_, rfl, by simp [Warranted], by simpa [handleOf] using hpool c (hp.mem_iff.2 List.mem_cons_self)⟩
  | dialError o io io' io'' x k c pool hk hst hp hw =>
    refine ⟨_, rfl, ?_, by simpa [handleOf] using hpool c (hp.mem_iff.2 List.mem_cons_self)⟩
    intro e he
    simp only [List.mem_cons, List.not_mem_nil, or_false] at he
    rcases he with rfl | rfl | rfl
    · exact hw
    · trivial
    · trivial
  | downNone => exact hn'
  | shutdown => exact hn'
  | closing => exact hn'
  | forget => exact hn'
  | gone o io io' x k c hk hs ha hw =>
    refine ⟨_, rfl, ?_, by simpa [handleOf] using hcon x k c hk hs⟩
    intro e he
    simp only [List.mem_cons, List.not_mem_nil, or_false] at he
    rcases he with rfl | rfl
    · exact hw
    · trivial
  | reset o io io' x k c hk hs => exact ⟨_, rfl, by simp [Warranted], by simpa [handleOf] using hcon x k c hk hs⟩
  | windShut => exact hn'
  | windDown o io x k c deadline hk hs hst hz ha hw =>
    exact ⟨_, rfl, by simpa using hw, by simpa [handleOf] using hcon x k c hk hs⟩
  | fetch => exact hn'
  | lost io x peer b hk => exact ⟨_, rfl, by simp [Warranted], by simp [handleOf]⟩
  | read io x k c b now r hk hs hw => exact ⟨_, rfl, by simpa using hw, by simpa [handleOf] using hcon x k c hk hs⟩
  | eof io x k c now r hk hs he hw => exact ⟨_, rfl, by simpa using hw, by simpa [handleOf] using hcon x k c hk hs⟩
  | write x k c out ws hk hs ho hf hw =>
    refine ⟨_, rfl, fun e he => ?_, fun e he c' hc' => ?_⟩
    · obtain ⟨w, hw', rfl⟩ := List.mem_map.1 he
      exact hw w hw'
    · obtain ⟨w, hw', rfl⟩ := List.mem_map.1 he
      simp only [handleOf, Option.some.injEq] at hc'
      subst hc'
      exact hcon x k c hk hs
  | promote => exact hn'
  | shut io x k c hk hs hf hst ho hw => exact ⟨_, rfl, by simpa using hw, by simpa [handleOf] using hcon x k c hk hs⟩
  | progress => exact hn'
  | reap io io' c d a hd ha hw =>
    refine ⟨_, rfl, ?_, ?_⟩
    · intro e he
      simp only [List.mem_cons, List.not_mem_nil, or_false] at he
      rcases he with rfl | rfl
      · exact hw
      · trivial
    · rcases ha with rfl | rfl <;> simpa [handleOf] using hclo c d hd

section
variable [DecidableEq I] [DecidableEq A]
variable {cfg : Cfg I A} {env : Env I A} {X : XCfg} {T : TEnv} {E : EEnv S C A}
variable {e0 : Ep I A} {cmp0 : CmpOptions} {io0 : S} {handles : List C} {listener : Option C}

/-- The books of the engine. -/
structure Book (E : EEnv S C A) (H : List C) (start : C → Use) (s : Gear A C S) : Prop where
  keys : s.closing.NodupKeys
  count : ∀ a, held s a = H.count a
  used : ∀ c ∈ H, Used start s c
  only : ∀ e ∈ s.log, ∀ c, handleOf e.2 = some c → c ∈ H
  warranted : ∀ e ∈ s.log, Warranted E e

/-- What a handle is used for at the start. -/
def startUse (listener : Option C) (c : C) : Use := if listener = some c then .listening else .idle

theorem book {t0 : Nat} (hnew : Ep.tryNew cfg env t0 = .ok e0) (hH : (handles ++ listener.toList).Nodup) {g : Engine I A C S}
    (hr : Reached cfg env X T E e0 cmp0 io0 handles listener g) :
    Book E (handles ++ listener.toList) (startUse listener) (gear g) := by
  induction hr with
  | refl =>
    refine ⟨Map.nodup_nil, fun a => ?_, fun c hc => ⟨_, rfl, ?_⟩, fun e he => absurd he List.not_mem_nil,
      fun e he => absurd he List.not_mem_nil⟩
    · simp [held, gear, base, soc, Map.keys, List.count_append]
    · by_cases h : listener = some c
      · exact .inr (.inl ⟨h, by simp [startUse, h]⟩)
      · rcases List.mem_append.1 hc with h1 | h1
        · exact .inl ⟨h1, by simp [startUse, h]⟩
        · exact absurd (Option.mem_toList.1 h1) h
  | @snoc b c hr hm ih =>
    have hn : b.conns.NodupKeys := nodup_moves hr Map.nodup_nil
    obtain ⟨o, ho, hs⟩ := move_eff hm hn
    have h1 : ∀ a, held (gear b) a ≤ 1 := fun a => by rw [ih.count]; exact List.nodup_iff_count.1 hH a
    have hsock : ∀ x k, (gear b).conns.get? x = some k → k.state = .pendingDial → k.socket = none :=
      fun x k hk hst => ((pipe hnew hr x).sock k hk).2 hst
    have hdry : ∀ x k, (gear b).conns.get? x = some k → k.state = .halfClosed → k.out = [] :=
      fun x k hk hst => (pipe hnew hr x).dry k hk hst
    have hfresh : ∀ x, (∃ op, o.map (fun op => (op, (b.coord.step cfg env X T op).2)) = some (op, .accepted (some x))) ∨
        (∃ op peer sid, o.map (fun op => (op, (b.coord.step cfg env X T op).2)) =
          some (op, .action (some (.connect x peer sid)))) → (gear b).conns.get? x = none :=
      fun x h => congrArg EV.k (fresh_of hnew hr (pipe hnew hr x) h)
    obtain ⟨h2, h3⟩ := eff_held ho hn ih.keys h1 hsock hfresh
    obtain ⟨es, h4, h5, h6⟩ := eff_acts ho hn
    refine ⟨h2, fun a => (h3 a).trans (ih.count a), fun a ha => eff_used ho hn (h1 a) hsock hdry hfresh (ih.used a ha),
      fun e he a ha => ?_, fun e he => ?_⟩
    · rw [h4] at he
      rcases List.mem_append.1 he with he | he
      · exact ih.only e he a ha
      · have := h6 e he a ha
        rw [ih.count] at this
        exact List.one_le_count_iff.1 this
    · rw [h4] at he
      rcases List.mem_append.1 he with he | he
      · exact ih.warranted e he
      · exact h5 e he
end

end Engine
end Verif
