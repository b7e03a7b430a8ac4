import Verif.Proof.CoordMoves
/-
What stays true of a bridge while it works, and the shape of the coordinator's tables.
-/
namespace Verif
namespace Coord
variable {I A : Type} [DecidableEq I] [DecidableEq A] {cfg : Cfg I A} {env : Env I A} {X : XCfg} {T : TEnv} {N : Nat → Bridge I A → Prop} {L : Prop}

theorem Kin.bstep {b b' : Bridge I A} (h : BStep env T b b') : Bridge.Kin b b' := by
  cases h with
  | replay => exact .replay _ _
  | pumpOut => exact .pumpOut (Bridge.pumpOut_cases _ _)

theorem Kin.feedAll (b : Bridge I A) (bytes : Bytes) (eof : Bool) (now : Nat) :
    Bridge.Kin b (feedAll env T bytes eof now b) := by
  unfold Coord.feedAll
  simp only []
  by_cases hb : bytes = [] <;> cases eof <;> simp only [hb, if_true, if_false, Bool.false_eq_true]
  · exact .refl b
  · exact .feed _ _ _
  · exact .feed _ _ _
  · exact (Bridge.Kin.feed _ _ _).trans (.feed _ _ _)

/-- The shape of one exchange. -/
structure BShape (cfg : Cfg I A) (ring : Option Keyring) (x : Nat) (m : XMeta A) (b : Bridge I A) : Prop where
  xid : b.xid = x
  max : b.max = cfg.maxStreamFrameSize
  ring : b.isFailed = false → b.ring = ring
  mint : m.mint.isSome = true ↔ b.stream = none
  out : ∀ sid, m.mint = some (.outbound sid) → m.outbound = true
  inb : ∀ p, m.mint = some (.inbound p) → m.outbound = false ∧ m.peer = p
  idle : b.stream = none → b.phase = .handshaking ∨ b.isFailed = true
  busy : b.stream ≠ none → b.phase ≠ .handshaking
  valid : b.stream ≠ none → b.records.isHandshaking = false

theorem BShape.kin {ring : Option Keyring} {x : Nat} {m : XMeta A} {b b' : Bridge I A}
    (h : BShape cfg ring x m b) (k : Bridge.Kin b b') : BShape cfg ring x m b' where
  xid := k.xid.trans h.xid
  max := k.max.trans h.max
  ring := fun hf => by
    rw [k.ring]
    refine h.ring ?_
    cases hb : b.isFailed with
    | false => rfl
    | true => rw [k.failed hb] at hf; cases hf
  mint := h.mint.trans k.nos.symm
  out := h.out
  inb := h.inb
  idle := fun hn => by
    rcases k.idle (k.nos.1 hn) with h1 | h1
    · rcases h.idle (k.nos.1 hn) with h2 | h2
      · exact .inl (h1.trans h2)
      · exact .inr (k.failed h2)
    · exact .inr h1
  busy := fun hn hp => h.busy (fun h => hn (k.nos.2 h)) (k.hand hp)
  valid := fun hn => k.lab (h.valid (fun h => hn (k.nos.2 h)))

/-- The shape of the coordinator. -/
structure Shape (cfg : Cfg I A) (env : Env I A) (e0 : Ep I A) (c : Coord I A) : Prop where
  ep : c.ep = e0.run cfg env (c.calls.map Prod.snd)
  nc : c.conns.NodupKeys
  nm : c.metas.NodupKeys
  keys : ∀ x, c.conns.get? x = none ↔ c.metas.get? x = none
  lt : ∀ x b, c.conns.get? x = some b → x < c.nextX
  br : ∀ x b m, c.conns.get? x = some b → c.metas.get? x = some m → BShape cfg c.ring x m b
  outlt : ∀ e ∈ c.out, e.1 < c.nextX
  connlt : ∀ e ∈ c.connects, e.1 < c.nextX
  downlt : ∀ e ∈ c.teardowns, e.2 < c.nextX

theorem run_snoc (e : Ep I A) (l : List (Ep.Op I A)) (op : Ep.Op I A) :
    e.run cfg env (l ++ [op]) = ((e.run cfg env l).step cfg env op).1 := by
  simp [Ep.run, List.foldl_append]

theorem Shape.meta_of {e0 : Ep I A} {c : Coord I A} (h : Shape cfg env e0 c) {x : Nat} {b : Bridge I A}
    (hb : c.conns.get? x = some b) : ∃ m, c.metas.get? x = some m := by
  cases hm : c.metas.get? x with
  | some m => exact ⟨m, rfl⟩
  | none => rw [(h.keys x).2 hm] at hb; cases hb

theorem Shape.new (e0 : Ep I A) (cmp : CmpOptions) : Shape cfg env e0 (Coord.new e0 cmp) where
  ep := rfl
  nc := Map.nodup_nil
  nm := Map.nodup_nil
  keys := by intro x; simp [Coord.new]
  lt := by intro x b h; simp [Coord.new] at h
  br := by intro x b m h; simp [Coord.new] at h
  outlt := by simp [Coord.new]
  connlt := by simp [Coord.new]
  downlt := by simp [Coord.new]

theorem Shape.same {e0 : Ep I A} {c c' : Coord I A} (h : Shape cfg env e0 c) (s : Same c c') :
    Shape cfg env e0 c' := by
  obtain ⟨h1, h2, h3, h4, h5, h6, h7, h8, h9, h10⟩ := s
  exact ⟨by rw [h1, h2]; exact h.ep, by rw [h5]; exact h.nc, by rw [h7]; exact h.nm,
    by rw [h5, h7]; exact h.keys, by rw [h5, h6]; exact h.lt, by rw [h5, h7, h4]; exact h.br,
    by rw [h8, h6]; exact h.outlt, by rw [h9, h6]; exact h.connlt, by rw [h10, h6]; exact h.downlt⟩

theorem Shape.call {e0 : Ep I A} {c : Coord I A} (h : Shape cfg env e0 c) (x : Option Nat) (op : Ep.Op I A) :
    Shape cfg env e0 (c.callEp cfg env x op).1 :=
  ⟨by simp only [callEp, List.map_append, List.map_cons, List.map_nil, run_snoc, ← h.ep],
    h.nc, h.nm, h.keys, h.lt, h.br, h.outlt, h.connlt, h.downlt⟩

theorem Shape.put {e0 : Ep I A} {c : Coord I A} (h : Shape cfg env e0 c) {x : Nat} {b b' : Bridge I A}
    (hb : c.conns.get? x = some b) (k : Bridge.Kin b b') : Shape cfg env e0 (c.put x b') where
  ep := h.ep
  nc := Map.nodup_insert h.nc _ _
  nm := h.nm
  keys := fun y => by
    simp only [Coord.put, Map.get?_insert]
    split
    · next e => subst e; rw [← h.keys, hb]; simp
    · exact h.keys y
  lt := fun y b2 hy => by
    simp only [Coord.put, Map.get?_insert] at hy
    split at hy
    · next e => subst e; exact h.lt _ _ hb
    · exact h.lt _ _ hy
  br := fun y b2 m hy hm => by
    simp only [Coord.put, Map.get?_insert] at hy
    split at hy
    · next e => subst e; cases hy; exact (h.br _ _ _ hb hm).kin k
    · exact h.br _ _ _ hy hm
  outlt := h.outlt
  connlt := h.connlt
  downlt := h.downlt

/-- The tables change in one place, or lose entries. -/
theorem Shape.drop {e0 : Ep I A} {c : Coord I A} (h : Shape cfg env e0 c) (x : Nat) :
    Shape cfg env e0 { c with conns := c.conns.erase x, metas := c.metas.erase x } where
  ep := h.ep
  nc := Map.nodup_erase h.nc _
  nm := Map.nodup_erase h.nm _
  keys := fun y => by simp only [Map.get?_erase]; split <;> simp [h.keys y]
  lt := fun y b hy => by
    simp only [Map.get?_erase] at hy
    split at hy
    · cases hy
    · exact h.lt _ _ hy
  br := fun y b m hy hm => by
    simp only [Map.get?_erase] at hy hm
    split at hy
    · cases hy
    · next hne => rw [if_neg hne] at hm; exact h.br _ _ _ hy hm
  outlt := h.outlt
  connlt := h.connlt
  downlt := h.downlt

theorem Shape.queues {e0 : Ep I A} {c : Coord I A} (h : Shape cfg env e0 c)
    {o : List (Nat × A × Bytes)} {k : List (Nat × A × Nat)} {t : List (Teardown × Nat)}
    (ho : ∀ e ∈ o, e.1 < c.nextX) (hk : ∀ e ∈ k, e.1 < c.nextX) (ht : ∀ e ∈ t, e.2 < c.nextX) :
    Shape cfg env e0 { c with out := o, connects := k, teardowns := t } :=
  ⟨h.ep, h.nc, h.nm, h.keys, h.lt, h.br, ho, hk, ht⟩

theorem Shape.teardown {e0 : Ep I A} {c : Coord I A} (h : Shape cfg env e0 c) (t : Teardown) {x : Nat}
    (hx : x < c.nextX) : Shape cfg env e0 (c.teardown t x) :=
  h.queues h.outlt h.connlt (by
    intro e he
    rcases List.mem_append.1 he with he | he
    · exact h.downlt e he
    · rw [List.mem_singleton.1 he]; exact hx)

theorem Shape.purge {e0 : Ep I A} {c : Coord I A} (h : Shape cfg env e0 c) (x : Nat) :
    Shape cfg env e0 (c.purge x) :=
  h.queues (fun e he => h.outlt e (List.mem_filter.1 he).1) h.connlt h.downlt

theorem Shape.purgeConnect {e0 : Ep I A} {c : Coord I A} (h : Shape cfg env e0 c) (x : Nat) :
    Shape cfg env e0 (c.purgeConnect x) :=
  h.queues h.outlt (fun e he => h.connlt e (List.mem_filter.1 he).1) h.downlt

theorem Shape.complete {e0 : Ep I A} {c : Coord I A} (h : Shape cfg env e0 c) (x : Nat)
    (m : Option (XMeta A)) (ok : Bool) : Shape cfg env e0 (c.complete cfg env x m ok) := by
  unfold Coord.complete
  split
  · exact h
  · split
    · exact h
    · exact h.call _ _

theorem complete_nextX (c : Coord I A) (x : Nat) (m : Option (XMeta A)) (ok : Bool) :
    (c.complete cfg env x m ok).nextX = c.nextX := by
  unfold Coord.complete
  split
  · rfl
  · split <;> rfl

theorem Shape.collect {e0 : Ep I A} {c : Coord I A} (h : Shape cfg env e0 c) (x : Nat) (b : Bridge I A)
    (hx : x < c.nextX) : Shape cfg env e0 (c.collect x b).1 := by
  unfold Coord.collect
  split
  · exact h
  · split
    · exact h
    · exact h.queues (by
        intro e he
        rcases List.mem_append.1 he with he | he
        · exact h.outlt e he
        · rw [List.mem_singleton.1 he]; exact hx) h.connlt h.downlt

theorem collect_nextX (c : Coord I A) (x : Nat) (b : Bridge I A) : (c.collect x b).1.nextX = c.nextX := by
  unfold Coord.collect
  split
  · rfl
  · split <;> rfl

theorem Shape.reap {e0 : Ep I A} {c : Coord I A} (h : Shape cfg env e0 c) {x : Nat} {b : Bridge I A}
    (hx : x < c.nextX) : Shape cfg env e0 (c.reap cfg env x b) := by
  unfold Coord.reap
  simp only []
  have h1 : Shape cfg env e0 (if b.isFailed = true then c.purge x else (c.collect x b).1) ∧
      (if b.isFailed = true then c.purge x else (c.collect x b).1).nextX = c.nextX := by
    split
    · exact ⟨h.purge x, rfl⟩
    · exact ⟨h.collect x b hx, collect_nextX c x b⟩
  generalize (if b.isFailed = true then c.purge x else (c.collect x b).1) = c1 at h1
  have h2 := (h1.1.drop x).complete x (c1.metas.get? x) (!b.isFailed)
  have h3 : (({ c1 with conns := c1.conns.erase x, metas := c1.metas.erase x } : Coord I A).complete cfg env x
      (c1.metas.get? x) (!b.isFailed)).nextX = c.nextX := by rw [complete_nextX]; exact h1.2
  generalize ({ c1 with conns := c1.conns.erase x, metas := c1.metas.erase x } : Coord I A).complete cfg env x
      (c1.metas.get? x) (!b.isFailed) = c2 at h2 h3
  split
  · exact (h2.call _ _).teardown _ (by rw [← h3] at hx; exact hx)
  · exact h2.teardown _ (by rw [h3]; exact hx)

theorem Shape.cancel {e0 : Ep I A} {c : Coord I A} (h : Shape cfg env e0 c) {x : Nat} (hx : x < c.nextX) :
    Shape cfg env e0 (c.cancel x) := by
  unfold Coord.cancel
  refine Shape.teardown ?_ _ hx
  exact (((h.drop x).purge x).queues ((h.drop x).purge x).outlt h.connlt
    (fun e he => h.downlt e (List.mem_filter.1 he).1))

/-- An exchange is added under the next id. -/
theorem Shape.open {e0 : Ep I A} {c c' : Coord I A} (h : Shape cfg env e0 c) {b : Bridge I A} {m : XMeta A}
    (hb : BShape cfg c.ring c.nextX m b)
    (h1 : c'.ep = c.ep) (h2 : c'.calls = c.calls) (h4 : c'.ring = c.ring)
    (h5 : c'.conns = c.conns.insert c.nextX b) (h6 : c'.nextX = c.nextX + 1)
    (h7 : c'.metas = c.metas.insert c.nextX m) (h8 : c'.out = c.out)
    (h9 : ∀ e ∈ c'.connects, e ∈ c.connects ∨ e.1 = c.nextX) (h10 : c'.teardowns = c.teardowns) :
    Shape cfg env e0 c' where
  ep := by rw [h1, h2]; exact h.ep
  nc := by rw [h5]; exact Map.nodup_insert h.nc _ _
  nm := by rw [h7]; exact Map.nodup_insert h.nm _ _
  keys := fun y => by rw [h5, h7]; simp only [Map.get?_insert]; split <;> simp [h.keys y]
  lt := fun y b2 hy => by
    rw [h5, Map.get?_insert] at hy
    rw [h6]
    split at hy
    · next e => subst e; exact Nat.lt_succ_self _
    · exact Nat.lt_succ_of_lt (h.lt _ _ hy)
  br := fun y b2 m2 hy hm => by
    rw [h5, Map.get?_insert] at hy
    rw [h7, Map.get?_insert] at hm
    rw [h4]
    split at hy
    · next e => rw [if_pos e] at hm; subst e; cases hy; cases hm; exact hb
    · next e => rw [if_neg e] at hm; exact h.br _ _ _ hy hm
  outlt := by rw [h8, h6]; exact fun e he => Nat.lt_succ_of_lt (h.outlt e he)
  connlt := fun e he => by
    rw [h6]
    rcases h9 e he with h | h'
    · exact Nat.lt_succ_of_lt (by rename_i h0; exact h0.connlt e h)
    · rw [h']; exact Nat.lt_succ_self _
  downlt := by rw [h10, h6]; exact fun e he => Nat.lt_succ_of_lt (h.downlt e he)

theorem Shape.retireDial {e0 : Ep I A} {c : Coord I A} (h : Shape cfg env e0 c) {x : Nat}
    (hx : x < c.nextX) : Shape cfg env e0 (c.retireDial cfg env x) := by
  unfold Coord.retireDial
  simp only []
  have h1 := ((h.purge x).purgeConnect x).drop x
  have h2 := h1.complete x (((c.purge x).purgeConnect x).metas.get? x) false
  refine h2.teardown _ ?_
  rw [complete_nextX]; exact hx

omit [DecidableEq I] [DecidableEq A] in
theorem erase_some {V : Type} {m : Map Nat V} {k j : Nat} {v : V} (h : (m.erase k).get? j = some v) :
    m.get? j = some v := by
  rw [Map.get?_erase] at h
  split at h
  · cases h
  · exact h

/-- The exchange of a promoted bridge. -/
theorem BShape.promote {ring : Option Keyring} {x : Nat} {m : XMeta A} {b : Bridge I A} {s : Stream I A}
    {mint : Mint A} (h : BShape cfg ring x m b) (hm : m.mint = some mint) (ht : b.isTerminal = false)
    (hh : b.isHandshaking = false) : BShape cfg ring x { m with mint := none } (b.promote s) := by
  have hn : b.stream = none := h.mint.1 (by simp [hm])
  have hf : b.isFailed = false := by
    cases hf : b.isFailed with
    | false => rfl
    | true => rw [Bridge.terminal_of_failed hf] at ht; cases ht
  have hp : b.phase = .handshaking := by
    rcases h.idle hn with h | h
    · exact h
    · rw [hf] at h; cases h
  exact {
    xid := h.xid
    max := h.max
    ring := fun _ => h.ring hf
    mint := by simp [Bridge.promote]
    out := by simp
    inb := by simp
    idle := by simp [Bridge.promote]
    busy := fun _ => by simp [Bridge.promote]
    valid := fun _ => by simpa [Bridge.isHandshaking, Bridge.promote, hp] using hh }

theorem Shape.takeMint {e0 : Ep I A} {c : Coord I A} (h : Shape cfg env e0 c) {x : Nat} {b b' : Bridge I A}
    {m m' : XMeta A} (hb : c.conns.get? x = some b) (op : Ep.Op I A)
    (hn : BShape cfg c.ring x m' b') (p : Bool) :
    Shape cfg env e0 { (({ c with metas := c.metas.insert x m' } : Coord I A).callEp cfg env (some x) op).1 with
      conns := c.conns.insert x b', panicked := p } where
  ep := (h.call (some x) op).ep
  nc := Map.nodup_insert h.nc _ _
  nm := Map.nodup_insert h.nm _ _
  keys := fun y => by simp only [callEp, Map.get?_insert]; split <;> simp [h.keys y]
  lt := fun y b2 hy => by
    simp only [Map.get?_insert] at hy
    split at hy
    · next e => subst e; exact h.lt _ _ hb
    · exact h.lt _ _ hy
  br := fun y b2 m2 hy hm => by
    simp only [callEp, Map.get?_insert] at hy hm
    split at hy
    · next e => rw [if_pos e] at hm; subst e; cases hy; cases hm; exact hn
    · next e => rw [if_neg e] at hm; exact h.br _ _ _ hy hm
  outlt := h.outlt
  connlt := h.connlt
  downlt := h.downlt

theorem Shape.erased {e0 : Ep I A} {c c1 : Coord I A} (h : Shape cfg env e0 c) {x : Nat}
    (h1 : c1.ep = c.ep) (h2 : c1.calls = c.calls) (h4 : c1.ring = c.ring)
    (h5 : c1.conns.erase x = c.conns.erase x) (h6 : c1.nextX = c.nextX)
    (h7 : c1.metas.erase x = c.metas.erase x) (h8 : c1.out = c.out)
    (h9 : c1.connects = c.connects) (h10 : c1.teardowns = c.teardowns) :
    Shape cfg env e0 { c1 with conns := c1.conns.erase x, metas := c1.metas.erase x } := by
  have h := h.drop x
  exact ⟨by rw [show _ = c1.ep from rfl, h1, h.ep]; simp [h2], by simp only [h5]; exact h.nc,
    by simp only [h7]; exact h.nm, by simp only [h5, h7]; exact h.keys, by simp only [h5, h6]; exact h.lt,
    by simp only [h5, h7, h4]; exact h.br, by simp only [h8, h6]; exact h.outlt,
    by simp only [h9, h6]; exact h.connlt, by simp only [h10, h6]; exact h.downlt⟩

/-- With one exchange out of sight, dropping it restores the shape. -/
structure ShapeBut (cfg : Cfg I A) (env : Env I A) (e0 : Ep I A) (x : Nat) (c : Coord I A) : Prop where
  drop : Shape cfg env e0 { c with conns := c.conns.erase x, metas := c.metas.erase x }
  lt : x < c.nextX

theorem ShapeBut.mint {e0 : Ep I A} {c : Coord I A} (h : Shape cfg env e0 c) {x : Nat}
    (hx : x < c.nextX) (m : XMeta A) (mint : Mint A) (now : Nat) :
    ShapeBut cfg env e0 x (c.takeMint cfg env x m mint now).1 where
  drop := by
    have h1 := (h.drop x).call (some x) (mintOp mint now)
    unfold Coord.takeMint
    simp only [callEp, Map.erase_insert] at h1 ⊢
    exact h1
  lt := hx

theorem Shape.move {e0 : Ep I A} {c c' : Coord I A} (hm : Move cfg env X T N L c c') (h : Shape cfg env e0 c) :
    Shape cfg env e0 c' := by
  cases hm with
  | book s => exact h.same s
  | call x op _ => exact h.call x op
  | start op sid kind _ =>
    have h1 := h.call none op
    exact ⟨h1.ep, h1.nc, h1.nm, h1.keys, h1.lt, h1.br, h1.outlt, h1.connlt, h1.downlt⟩
  | bridge hb hs => exact h.put hb (Kin.bstep hs)
  | @commit x b s ev rest now hb hs he hl =>
    have hk : Bridge.Kin b (Bridge.commitOne cfg env T c.cmp now c.ep b s ev rest).2 :=
      Bridge.Kin.commitOne hs (Bridge.commitOne_cases _ _ _ _ _ _ _)
    have h1 := (h.put hb hk)
    have h2 := h1.call (some x) (.streamEvent (.payload ev) now)
    have e : c.commit cfg env T x b s ev rest now =
        ((c.put x (Bridge.commitOne cfg env T c.cmp now c.ep b s ev rest).2).callEp cfg env (some x)
          (.streamEvent (.payload ev) now)).1 := by
      simp only [Coord.commit, callEp, Coord.put, Bridge.commitOne_ep]
    rw [e]; exact h2
  | @shutdown x b hb ht =>
    unfold Coord.maybeShutdown
    split
    · exact h
    · split
      · exact h
      · next m hm =>
        split
        · exact h
        · refine Shape.teardown ?_ _ (h.lt _ _ hb)
          exact ⟨h.ep, h.nc, Map.nodup_insert h.nm _ _, fun y => by
              simp only [Map.get?_insert]
              split
              · next e => subst e; simp [hb]
              · exact h.keys y, h.lt, fun y b2 m2 hy hm2 => by
              simp only [Map.get?_insert] at hm2
              split at hm2
              · next e =>
                subst e; cases hm2
                have := h.br _ _ _ hy hm
                exact ⟨this.xid, this.max, this.ring, this.mint, this.out, this.inb, this.idle, this.busy, this.valid⟩
              · exact h.br _ _ _ hy hm2, h.outlt, h.connlt, h.downlt⟩
  | @collect x b hb =>
    have hx := h.lt _ _ hb
    have h1 := h.collect x b hx
    have hk : Bridge.Kin b (c.collect x b).2 := by
      unfold Coord.collect
      split
      · exact .refl b
      · split <;> exact .transmit b
    refine h1.put ?_ hk
    rw [← hb]
    unfold Coord.collect
    split
    · rfl
    · split <;> rfl
  | reap hb ht _ => exact h.reap (h.lt _ _ hb)
  | dial now d hr =>
    rcases dialOne_cases (cfg := cfg) (env := env) (X := X) now c d with ⟨e, _⟩ | ⟨e, _⟩
    · rw [e]
      exact (Shape.same (c' := { c with kinds := c.kinds.erase d.1 }) h
        ⟨rfl, rfl, rfl, rfl, rfl, rfl, rfl, rfl, rfl, rfl, fun _ _ h => erase_some h, List.Sublist.refl _⟩).call _ _
    · rw [e]
      refine h.open (b := Bridge.new c.nextX (.newDialer X.label X.skipLabel) d.2.2 c.cmp c.ring cfg.maxStreamFrameSize)
        (m := { peer := d.2.1, mint := some (.outbound d.1), finEmitted := false, kind := c.kinds.get? d.1, outbound := true })
        ?_ rfl rfl rfl rfl rfl rfl rfl ?_ rfl
      · exact ⟨rfl, rfl, fun _ => rfl, by simp [Bridge.new], by simp, by simp, fun _ => .inl rfl, by simp [Bridge.new], by simp [Bridge.new]⟩
      · intro e he
        rcases List.mem_append.1 he with he | he
        · exact .inl he
        · rw [List.mem_singleton.1 he]; exact .inr rfl
  | @mintOk x b m mint s now hb ht hh hm hmi hs =>
    have hbs := h.br _ _ _ hb hm
    have := h.takeMint (m := m) hb (mintOp mint now) (hbs.promote (s := s) hmi ht hh)
      (c.panicked || s.pollTimeout.isNone)
    unfold Coord.takeMint Coord.promoteX
    simp only [callEp] at this ⊢
    rw [Map.modify_eq_insert h.nc _ hb]
    exact this
  | @mintOut x b m sid now hb ht hh hm hmi =>
    have hb := ShapeBut.mint h (h.lt _ _ hb) m (.outbound sid) now
    generalize (c.takeMint cfg env x m (.outbound sid) now).1 = c1 at hb
    unfold Coord.retireDial
    simp only []
    have h1 := (hb.drop.purge x).purgeConnect x
    have h2 := h1.complete x (((c1.purge x).purgeConnect x).metas.get? x) false
    exact h2.teardown _ (by rw [complete_nextX]; exact hb.lt)
  | @mintIn x b m peer now hb ht hh hm hmi =>
    have hb := ShapeBut.mint h (h.lt _ _ hb) m (.inbound peer) now
    generalize (c.takeMint cfg env x m (.inbound peer) now).1 = c1 at hb
    unfold Coord.cancel
    refine Shape.teardown ?_ _ hb.lt
    have h1 := hb.drop.purge x
    exact h1.queues h1.outlt h1.connlt (fun e he => h1.downlt e (List.mem_filter.1 he).1)
  | @cancel x _ _ hb =>
    refine h.cancel ?_
    simp only [Coord.hasBytes, List.any_eq_true, decide_eq_true_eq] at hb
    obtain ⟨e, he, hx⟩ := hb
    rw [← hx]; exact h.outlt e he

theorem Shape.modify {e0 : Ep I A} {c : Coord I A} (h : Shape cfg env e0 c) (x : Nat)
    (f : Bridge I A → Bridge I A) (hk : ∀ b, Bridge.Kin b (f b)) :
    Shape cfg env e0 { c with conns := c.conns.modify x f } := by
  cases hb : c.conns.get? x with
  | none => rw [Map.modify_of_none _ hb]; exact h
  | some b => rw [Map.modify_eq_insert h.nc _ hb]; exact h.put hb (hk b)

theorem get?_map {V W : Type} (f : V → W) (m : Map Nat V) (x : Nat) :
    (Map.get? (m.map (fun (e : Nat × V) => (e.1, f e.2))) x : Option W) = (m.get? x).map f := by
  induction m with
  | nil => rfl
  | cons a m ih =>
    rw [List.map_cons, Map.get?_cons, Map.get?_cons]
    by_cases h : a.1 = x
    · simp [h]
    · simp only [h, if_false]; exact ih

theorem keys_map {V W : Type} (f : V → W) (m : Map Nat V) :
    Map.keys (m.map (fun (e : Nat × V) => (e.1, f e.2))) = m.keys := by
  simp [Map.keys, Function.comp_def]

theorem Shape.mapAll {e0 : Ep I A} {c : Coord I A} (h : Shape cfg env e0 c)
    (f : Bridge I A → Bridge I A) (ring : Option Keyring)
    (hk : ∀ x b m, BShape cfg c.ring x m b → BShape cfg ring x m (f b)) :
    Shape cfg env e0 { c with conns := c.conns.map (fun (e : Nat × Bridge I A) => (e.1, f e.2)), ring := ring } where
  ep := h.ep
  nc := by
    have := keys_map f c.conns
    unfold Map.NodupKeys at *
    simp only [Map.NodupKeys, this]
    exact h.nc
  nm := h.nm
  keys := fun x => by simp only [get?_map, Option.map_eq_none_iff]; exact h.keys x
  lt := fun x b hb => by
    simp only [get?_map, Option.map_eq_some_iff] at hb
    obtain ⟨b0, h0, _⟩ := hb
    exact h.lt x b0 h0
  br := fun x b m hb hm => by
    simp only [get?_map, Option.map_eq_some_iff] at hb
    obtain ⟨b0, h0, rfl⟩ := hb
    exact hk _ _ _ (h.br _ _ _ h0 hm)
  outlt := h.outlt
  connlt := h.connlt
  downlt := h.downlt

/-- What the second loop of a change of encryption leaves alone, and how it changes the queues. -/
theorem abortFailed_fold (l : List Nat) (c : Coord I A) :
    let c' := l.foldl abortFailed c
    c'.ep = c.ep ∧ c'.calls = c.calls ∧ c'.ring = c.ring ∧ c'.conns = c.conns ∧ c'.nextX = c.nextX ∧
    c'.metas = c.metas ∧ c'.cmp = c.cmp ∧ (∀ e ∈ c'.out, e ∈ c.out) ∧
    c'.connects = c.connects.filter (fun e => e.1 ∉ l) ∧
    c'.teardowns = c.teardowns ++ l.map (fun x => (Teardown.abort, x)) := by
  induction l generalizing c with
  | nil =>
    refine ⟨rfl, rfl, rfl, rfl, rfl, rfl, rfl, fun e he => he, ?_, by simp⟩
    exact (List.filter_eq_self.2 (by simp)).symm
  | cons x l ih =>
    obtain ⟨h1, h2, h3, h4, h5, h6, h7, h8, h9, h10⟩ := ih (c.abortFailed x)
    refine ⟨h1, h2, h3, h4, h5, h6, h7, ?_, ?_, ?_⟩
    · intro e he
      exact (List.mem_filter.1 (h8 e he)).1
    · rw [List.foldl_cons, h9]
      simp only [abortFailed, teardown, purgeConnect, purge, List.filter_filter]
      congr 1
      funext e
      simp [not_or, Bool.and_comm]
    · rw [List.foldl_cons, h10]
      simp [abortFailed, teardown, purgeConnect, purge]

theorem setEncryption_failed (b : Bridge I A) (ring : Option Keyring) : (b.setEncryption ring).isFailed = true :=
  Bridge.fail_failed _ _

theorem Kin.setEncryption (b : Bridge I A) (ring : Option Keyring) :
    Bridge.Kin { b with ring := ring } (b.setEncryption ring) := Bridge.Kin.fail _ _

theorem BShape.setEncryption {ring ring' : Option Keyring} {x : Nat} {m : XMeta A} {b : Bridge I A}
    (h : BShape cfg ring x m b) : BShape cfg ring' x m (b.setEncryption ring') :=
  BShape.kin (b := { b with ring := ring' })
    ⟨h.xid, h.max, fun _ => rfl, h.mint, h.out, h.inb, h.idle, h.busy, h.valid⟩ (Kin.setEncryption b ring')

theorem Shape.first {e0 : Ep I A} {c c1 : Coord I A} {op : XOp I A} (hf : First cfg env X T c op c1)
    (h : Shape cfg env e0 c) (hT : ∀ t l, ∀ x ∈ T.order t l, x ∈ l) : Shape cfg env e0 c1 := by
  cases hf with
  | plain hs _ => exact h.same hs
  | gossip => exact ⟨h.ep, h.nc, h.nm, h.keys, h.lt, h.br, h.outlt, h.connlt, h.downlt⟩
  | feed x bytes eof now => exact h.modify x _ (fun b => Kin.feedAll b bytes eof now)
  | dialFailed x now => exact h.modify x _ (fun b => Bridge.Kin.fail b _)
  | transportError x now => exact h.modify x _ (fun b => Bridge.Kin.fail b _)
  | leave now farewell => exact h.queues h.outlt (by simp) h.downlt
  | encrypt ring =>
    unfold Coord.setEncryption
    split
    · next he => rw [← he]; exact h.same ⟨rfl, rfl, rfl, rfl, rfl, rfl, rfl, rfl, rfl, rfl, fun _ _ h => h, List.Sublist.refl _⟩
    · simp only []
      have h1 := h.mapAll (fun b => b.setEncryption ring) ring (fun x b m hb => hb.setEncryption)
      have hl : ∀ x ∈ T.order c.tick ((c.conns.filter (fun e => !e.2.isFailed)).map Prod.fst), x < c.nextX := by
        intro x hx
        have := hT _ _ x hx
        simp only [List.mem_map, List.mem_filter] at this
        obtain ⟨e, ⟨he, _⟩, rfl⟩ := this
        obtain ⟨b, hb⟩ : ∃ b, c.conns.get? e.1 = some b := ⟨e.2, Map.get?_of_mem h.nc he⟩
        exact h.lt _ _ hb
      generalize T.order c.tick ((c.conns.filter (fun e => !e.2.isFailed)).map Prod.fst) = l at hl
      have hA := abortFailed_fold l ({ c with conns := c.conns.map (fun (e : Nat × Bridge I A) => (e.1, e.2.setEncryption ring)), tick := c.tick + 1 } : Coord I A)
      generalize (l.foldl abortFailed ({ c with conns := c.conns.map (fun (e : Nat × Bridge I A) => (e.1, e.2.setEncryption ring)), tick := c.tick + 1 } : Coord I A)) = c2 at hA
      obtain ⟨a1, a2, a3, a4, a5, a6, a7, a8, a9, a10⟩ := hA
      exact ⟨by simp only [a1, a2]; exact h1.ep, by simp only [a4]; exact h1.nc, by simp only [a6]; exact h1.nm,
        by simp only [a4, a6]; exact h1.keys, by simp only [a4, a5]; exact h1.lt,
        by simp only [a4, a6]; exact h1.br, by simp,
        by simp only [a9, a5]; exact fun e he => h.connlt e (List.mem_filter.1 he).1,
        by
          simp only [a10, a5]
          intro e he
          rcases List.mem_append.1 he with he | he
          · exact h.downlt e he
          · obtain ⟨x, hx, rfl⟩ := List.mem_map.1 he
            exact hl x hx⟩
  | compress cmp =>
    have h1 := h.mapAll (fun b => b.setCompression cmp) c.ring (fun x b m hb => hb.kin (.setCompression b cmp))
    exact ⟨h1.ep, h1.nc, h1.nm, h1.keys, h1.lt, h1.br, h1.outlt, h1.connlt, h1.downlt⟩
  | popOut e rest he =>
    exact h.queues (fun e' he' => h.outlt e' (by rw [he]; exact List.mem_cons_of_mem _ he')) h.connlt h.downlt
  | popAction =>
    unfold pollAction
    split
    · next he =>
      exact h.queues h.outlt (fun e' he' => h.connlt e' (by rw [he]; exact List.mem_cons_of_mem _ he')) h.downlt
    · split
      · exact h
      · next t x rest ht =>
        refine h.queues h.outlt h.connlt (fun e he => h.downlt e ?_)
        have : ∀ (l rest : List (Teardown × Nat)) (r : Teardown × Nat), takeTeardown c.hasBytes l = some (r, rest) →
            ∀ e ∈ rest, e ∈ l := by
          intro l
          induction l with
          | nil => intro rest r h; simp [takeTeardown] at h
          | cons a l ih =>
            intro rest r h e he
            simp only [takeTeardown] at h
            split at h
            · rw [Option.map_eq_some_iff] at h
              obtain ⟨⟨r1, r2⟩, h1, h2⟩ := h
              cases h2
              rcases List.mem_cons.1 he with he | he
              · rw [he]; exact List.mem_cons_self
              · exact List.mem_cons_of_mem _ (ih _ _ h1 e he)
            · cases h; exact List.mem_cons_of_mem _ he
        exact this _ _ _ ht e he
  | accept src now x hx =>
    unfold Coord.accept at hx ⊢
    simp only [] at hx ⊢
    split at hx
    · cases hx
    · split at hx
      · cases hx
      · next h1 h2 =>
        rw [if_neg h1, if_neg h2]
        refine h.open (b := Bridge.new c.nextX (.newAcceptor X.label X.skipLabel) (now + X.acceptDeadline) c.cmp c.ring cfg.maxStreamFrameSize)
          (m := { peer := src, mint := some (.inbound src), finEmitted := false, kind := none, outbound := false })
          ?_ rfl rfl rfl rfl rfl rfl rfl (fun e he => .inl he) rfl
        exact ⟨rfl, rfl, fun _ => rfl, by simp [Bridge.new], by simp, by simp, fun _ => .inl rfl, by simp [Bridge.new], by simp [Bridge.new]⟩

theorem order_mem (T : TEnv) : ∀ t l, ∀ x ∈ T.order t l, x ∈ l := fun t l _ hx => (T.order_perm t l).mem_iff.1 hx

/-- Every state a fresh coordinator reaches has this shape. -/
theorem shape_run (e0 : Ep I A) (cmp : CmpOptions) (ops : List (XOp I A)) :
    Shape cfg env e0 ((Coord.new e0 cmp).run cfg env X T ops) :=
  run_inv (P := Shape cfg env e0) (fun hf h => h.first hf (order_mem T)) (fun hm h => h.move hm) (Shape.new e0 cmp) ops

end Coord
end Verif
