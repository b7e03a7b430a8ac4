import Verif.Proof.QuicMoves
/-
The functions of the QUIC node as sequences of moves.
-/
namespace Verif.Quic
open Verif Map QBridge
variable {I A : Type} [DecidableEq I] [DecidableEq A] {Q : Quinn A}
variable {cfg : Cfg I A} {env : Env I A} {X : QCfg} {T : TEnv}

/-- The locals of the loops are empty. -/
structure Calm (s : Quic I Q) : Prop where
  doom : s.doom = []
  hand : s.hand = []
  limbo : s.limbo = none

theorem Went.calm {s s' : Quic I Q} (h : Went cfg env X T s s') (hc : Calm s) : Calm s' :=
  ⟨h.doom.trans hc.doom, h.hand.trans hc.hand, h.limbo.trans hc.limbo⟩

theorem put_went {s : Quic I Q} (ch ch' : Nat) {t : ConnTable Q.C Q.V A}
    (h : ConnStep Q (s.hot = some ch') ch' s.pool.table t) : Went cfg env X T s (s.putTable ch t) :=
  (Went.one (.conn h)).snoc (.book ..)

theorem use_went (s : Quic I Q) (ch : Nat) (f : Q.C → Q.C) (hf : s.hot = some ch ∨ ∀ c, Q.drained (f c) = Q.drained c) :
    Went cfg env X T s (s.useConn ch f) :=
  put_went ch ch (via_step _ _ _ hf)

theorem touch_step {D : Prop} (t : ConnTable Q.C Q.V A) (ch : Nat) :
    ConnStep Q D ch t (t.on Q ch (fun e => (e.touch Q, ()))).1 := by
  unfold ConnTable.on
  cases he : t.conns.get? ch with
  | none => exact .inl rfl
  | some e =>
    right
    obtain ⟨t1, t2, t3, t4, t5, t6, t7, t8⟩ := touch_fields (Q := Q) e
    exact ⟨e, _, he, rfl, t2, t3, t4, t5, t7, .inr (by dsimp only; rw [t1])⟩

theorem index_went (s : Quic I Q) (ch : Nat) : Went cfg env X T s (s.indexConn ch) :=
  (Went.one (.conn (touch_step (D := s.hot = some ch) s.pool.table ch))).snoc (.book ..)

theorem transmit_drained (hS : Q.Sound) (now : Nat) : ∀ (fuel : Nat) (c : Q.C) (out : List (A × Bytes)),
    Q.drained (transmitLoop Q now fuel c out).1 = Q.drained c := by
  intro fuel
  induction fuel with
  | zero => intro c out; rfl
  | succ k ih =>
    intro c out
    have h := hS.transmit c now
    simp only [transmitLoop]
    split
    · next hx => rw [hx] at h; exact h
    · next hx => rw [hx] at h; exact (ih _ _).trans h

theorem collectConn_went (hS : Q.Sound) (now : Nat) (s : Quic I Q) (ch : Nat) :
    Went cfg env X T s (s.collectConn now ch) := by
  have h := via_step (D := s.hot = some ch) s.pool.table ch (fun c => transmitLoop Q now Q.fuel c [])
    (.inr (fun c => transmit_drained hS now Q.fuel c []))
  unfold collectConn
  split
  · exact .refl s
  · next t out hx =>
    have hx : (s.pool.table.on Q ch (fun e => e.via Q (fun c => transmitLoop Q now Q.fuel c []))).1 = t := by
      have := congrArg Prod.fst hx; exact this
    rw [hx] at h
    refine Went.trans ?_ (index_went _ ch)
    exact (Went.one (.conn h)).snoc (.book ..)

theorem collect_went (hS : Q.Sound) (now : Nat) (chs : List Nat) (s : Quic I Q) :
    Went cfg env X T s (s.collect now chs) :=
  Went.fold _ (P := fun _ => True) (fun _ _ _ _ => trivial) (fun s x _ => collectConn_went hS now s x) chs s trivial

theorem collectAll_went (hS : Q.Sound) (now : Nat) (s : Quic I Q) : Went cfg env X T s (s.collectAll T now) :=
  (Went.one (.book ..)).trans (collect_went (cfg := cfg) (env := env) (X := X) (T := T) hS now _ { s with tick := s.tick + 1 })

theorem reapConn_went (s : Quic I Q) (ch : Nat) (hh : s.hot = none) : Went cfg env X T s (s.reapConn ch).1 := by
  have h : Went cfg env X T s { s with pool := { s.pool with table := (s.pool.table.reapIfDrained Q s.pool.quinn ch).1 } } :=
    .one (.reapConn ch hh)
  unfold reapConn table
  split
  · exact .refl s
  · next t q hx =>
    rw [hx] at h
    exact h.snoc (.book ..)

theorem reconcile_went (s : Quic I Q) (now : Nat) : Went cfg env X T s (s.reconcileCatchup X now) := by
  unfold reconcileCatchup
  split
  · exact .one (.book ..)
  · split
    · exact .one (.book ..)
    · exact .refl s

theorem advance_went (s : Quic I Q) (now : Nat) : Went cfg env X T s (s.advanceCatchup X now) := .one (.book ..)

/-! ### Bridges -/

theorem tweaks {s : Quic I Q} {id : Nat} {b b' : QBridge I A} (hb : s.bridges.get? id = some b)
    (h : BMoves env.CI env.CA T b b') : Moves cfg env X T s (s.tweak id b') := by
  induction h with
  | refl =>
    have : s.tweak id b = s := by unfold tweak; rw [insert_of_get? hb]
    rw [this]; exact .refl s
  | @snoc b1 b2 _ hm ih =>
    have := Move.tweak (cfg := cfg) (env := env) (X := X) (T := T) (s := s.tweak id b1) (id := id)
      (get?_insert_self s.bridges id b1) hm
    have e : ({ s.tweak id b1 with bridges := (s.tweak id b1).bridges.insert id b2 } : Quic I Q) = s.tweak id b2 := by
      unfold tweak; dsimp only; rw [insert_insert]
    rw [e] at this
    exact ih.snoc this

theorem tweaks_went {s : Quic I Q} {id : Nat} {b b' : QBridge I A} (hb : s.bridges.get? id = some b)
    (h : BMoves env.CI env.CA T b b') : Went cfg env X T s (s.tweak id b') := ⟨tweaks hb h, rfl, rfl, rfl, rfl⟩

theorem enqueue_went (s : Quic I Q) (id : Nat) : Went cfg env X T s (s.enqueue id) := by
  unfold enqueue
  split
  · exact .refl s
  · next b hb =>
    split
    · exact .one (.book ..)
    · exact (Went.one (.tweak hb (.flag b true))).snoc (.book ..)

theorem enqueueAll_went (ids : List Nat) (s : Quic I Q) : Went cfg env X T s (s.enqueueAll ids) :=
  Went.fold _ (P := fun _ => True) (fun _ _ _ _ => trivial) (fun s x _ => enqueue_went s x) ids s trivial

/-- The state after one event of a bridge, or several, was handed to the endpoint. -/
def drained (s : Quic I Q) (id : Nat) (calls : List (Option Nat × Ep.Op I A))
    (r : Ep I A × QBridge I A × ConnTable Q.C Q.V A × List (Ep.Op I A)) : Quic I Q :=
  { s with
    ep := r.1, bridges := s.bridges.insert id r.2.1, pool := { s.pool with table := r.2.2.1 }
    calls := calls ++ r.2.2.2.map (fun op => (some id, op)) }

/-- A bridge and its connection after a step of the bridge. -/
theorem work_moves {s : Quic I Q} {id : Nat} {b b' : QBridge I A} {t' : ConnTable Q.C Q.V A} {ch : Nat}
    (hb : s.bridges.get? id = some b) (h : BMoves env.CI env.CA T b b')
    (ht : ConnStep Q (s.hot = some ch) ch s.pool.table t') :
    Moves cfg env X T s { s with bridges := s.bridges.insert id b', pool := { s.pool with table := t' } } :=
  (tweaks hb h).snoc (.conn (s := s.tweak id b') ht)

/-- One event of a bridge. -/
theorem commit_moves (hS : Q.Sound) (cmp : CmpOptions) (now : Nat) {s : Quic I Q} {id : Nat} {b : QBridge I A}
    {ev : PayloadEvent I A} {rest : List (PayloadEvent I A)} (hb : s.bridges.get? id = some b)
    (hev : b.stream.endpointEvents = ev :: rest) (hr : b.Ripe) :
    Moves cfg env X T s
      { s with
        ep := (commitOne cfg env T Q cmp now s.ep s.pool.table b ev rest).1
        bridges := s.bridges.insert id (commitOne cfg env T Q cmp now s.ep s.pool.table b ev rest).2.1
        pool := { s.pool with table := (commitOne cfg env T Q cmp now s.ep s.pool.table b ev rest).2.2 }
        calls := s.calls ++ [(some id, .streamEvent (.payload ev) now)] } ∧
    Alike b (commitOne cfg env T Q cmp now s.ep s.pool.table b ev rest).2.1 ∧
    (b.isTerminal = true → (commitOne cfg env T Q cmp now s.ep s.pool.table b ev rest).2.1.isTerminal = true) ∧
    (commitOne cfg env T Q cmp now s.ep s.pool.table b ev rest).2.1.Ripe ∧
    Fewer (b.popped rest) (commitOne cfg env T Q cmp now s.ep s.pool.table b ev rest).2.1 := by
  have hm := Move.commit (cfg := cfg) (env := env) (X := X) (T := T) now hb hev hr (.inl rfl)
  have h0 : Alike b (b.popped rest) := ⟨rfl, rfl, rfl, rfl, rfl, rfl, rfl, rfl, rfl, rfl⟩
  have hg : (s.bridges.insert id (b.popped rest)).get? id = some (b.popped rest) := get?_insert_self _ _ _
  unfold callEp at hm
  simp only [Ep.step] at hm
  rw [commitOne_eq]
  split
  · next e hx =>
    rw [hx] at hm
    exact ⟨.one hm, h0, fun h => h, hr, .inl rfl⟩
  · next e p hx =>
    have hR : Answer cfg env T s.ep ev now (compressPayload T.B cmp (Ep.encodeBytes env (.pushPull p))) :=
      ⟨p, cmp, by rw [hx], rfl⟩
    generalize compressPayload T.B cmp (Ep.encodeBytes env (.pushPull p)) = body at hR ⊢
    generalize now + RESPONSE_NS = dl
    have hm := Move.commit (cfg := cfg) (env := env) (X := X) (T := T) now hb hev hr
      (.inr ⟨Bridge.response_request hx, body, dl, hR, rfl⟩)
    unfold callEp at hm
    simp only [Ep.step] at hm
    rw [hx] at hm
    obtain ⟨h1, h2⟩ := pumpOut_spec (CI := env.CI) (CA := env.CA) (T := T) (D := s.hot = some b.ch) hS
        ((b.popped rest).loaded body dl) s.pool.table now
    have h3 : Alike b ((b.popped rest).loaded body dl) := ⟨rfl, rfl, rfl, rfl, rfl, rfl, rfl, rfl, rfl, rfl⟩
    refine ⟨(Moves.one hm).trans ?_, h3.trans h1.alike, fun h => h1.terminal h, h1.ripe hr,
      pumpOut_fewer ((b.popped rest).loaded body dl) s.pool.table now⟩
    have := work_moves (cfg := cfg) (X := X) (ch := b.ch)
      (s := { s with ep := e, bridges := s.bridges.insert id ((b.popped rest).loaded body dl)
                     calls := s.calls ++ [(some id, .streamEvent (.payload ev) now)] }) (get?_insert_self _ _ _) h1 h2
    dsimp only at this
    rw [insert_insert] at this
    exact this
  · next e hx =>
    rw [hx] at hm
    obtain ⟨h1, h2⟩ := failWithRetire_spec (CI := env.CI) (CA := env.CA) (T := T) (D := s.hot = some b.ch) hS
      (b.popped rest) s.pool.table .admissionClosed
    refine ⟨(Moves.one hm).trans ?_, h0.trans h1.alike, fun h => h1.terminal h, h1.ripe hr, drop_fewer _ _⟩
    have := work_moves (cfg := cfg) (X := X) (ch := b.ch)
      (s := { s with ep := e, bridges := s.bridges.insert id (b.popped rest)
                     calls := s.calls ++ [(some id, .streamEvent (.payload ev) now)] }) hg h1 h2
    dsimp only at this
    rw [insert_insert] at this
    exact this

theorem drain_moves (hS : Q.Sound) (cmp : CmpOptions) (now id : Nat) : ∀ (fuel : Nat) (s : Quic I Q) (b : QBridge I A)
    (log : List (Ep.Op I A)) (calls : List (Option Nat × Ep.Op I A)), s.bridges.get? id = some b → b.Ripe →
    s.calls = calls ++ log.map (fun op => (some id, op)) →
    Moves cfg env X T s (s.drained id calls (drainEvents cfg env T Q cmp now fuel s.ep s.pool.table b log)) ∧
    Alike b (drainEvents cfg env T Q cmp now fuel s.ep s.pool.table b log).2.1 ∧
    (b.isTerminal = true → (drainEvents cfg env T Q cmp now fuel s.ep s.pool.table b log).2.1.isTerminal = true) ∧
    (b.stream.endpointEvents.length ≤ fuel →
      (drainEvents cfg env T Q cmp now fuel s.ep s.pool.table b log).2.1.stream.endpointEvents = []) := by
  intro fuel
  have stop : ∀ (s : Quic I Q) (b : QBridge I A) (log : List (Ep.Op I A)) (calls : List (Option Nat × Ep.Op I A)),
      s.bridges.get? id = some b → s.calls = calls ++ log.map (fun op => (some id, op)) →
      Moves cfg env X T s (s.drained id calls (s.ep, b, s.pool.table, log)) := by
    intro s b log calls hb hc
    have e : s.drained id calls (s.ep, b, s.pool.table, log) = s := by
      unfold drained; dsimp only; rw [insert_of_get? hb, ← hc]
    rw [e]; exact .refl s
  induction fuel with
  | zero =>
    intro s b log calls hb hr hc
    exact ⟨stop s b log calls hb hc, .refl b, fun h => h, fun h => List.length_eq_zero_iff.1 (Nat.le_zero.1 h)⟩
  | succ k ih =>
    intro s b log calls hb hr hc
    simp only [drainEvents]
    split
    · next hnil => exact ⟨stop s b log calls hb hc, .refl b, fun h => h, fun _ => hnil⟩
    · next ev rest hev =>
      obtain ⟨h1, h2, h3, hr', h4⟩ := commit_moves (cfg := cfg) (env := env) (X := X) (T := T) hS cmp now hb hev hr
      obtain ⟨g1, g2, g3, g4⟩ := ih (b := (commitOne cfg env T Q cmp now s.ep s.pool.table b ev rest).2.1)
        (log := log ++ [.streamEvent (.payload ev) now]) (calls := calls) (s := { s with
          ep := (commitOne cfg env T Q cmp now s.ep s.pool.table b ev rest).1
          bridges := s.bridges.insert id (commitOne cfg env T Q cmp now s.ep s.pool.table b ev rest).2.1
          pool := { s.pool with table := (commitOne cfg env T Q cmp now s.ep s.pool.table b ev rest).2.2 }
          calls := s.calls ++ [(some id, .streamEvent (.payload ev) now)] })
        (get?_insert_self s.bridges id _) hr' (by dsimp only; rw [hc, List.map_append, List.append_assoc]; rfl)
      refine ⟨h1.trans ?_, h2.trans g2, fun h => g3 (h3 h), fun h => g4 ?_⟩
      rotate_left
      · rw [hev, List.length_cons] at h
        rcases h4 with h4 | h4 <;> rw [h4]
        · exact Nat.le_of_succ_le_succ h
        · exact Nat.zero_le _
      unfold drained at g1 ⊢
      dsimp only at g1 ⊢
      rw [insert_insert] at g1
      exact g1

/-- `drain_payload_only`. -/
theorem payload_moves (hS : Q.Sound) (cmp : CmpOptions) (now id : Nat) (s : Quic I Q) (b : QBridge I A)
    (hb : s.bridges.get? id = some b) :
    Moves cfg env X T s (s.drained id s.calls (drainPayloadOnly cfg env T Q cmp s.ep s.pool.table b now)) ∧
    Alike b (drainPayloadOnly cfg env T Q cmp s.ep s.pool.table b now).2.1 := by
  unfold drainPayloadOnly
  split
  · next hp =>
    obtain ⟨h1, h2, _, _⟩ := drain_moves (cfg := cfg) (env := env) (X := X) (T := T) hS cmp now id
      b.stream.endpointEvents.length s b [] s.calls hb (.inr hp) (by simp)
    exact ⟨h1, h2⟩
  · have e : s.drained id s.calls (s.ep, b, s.pool.table, []) = s := by
      unfold drained; dsimp only; rw [insert_of_get? hb]; simp
    rw [e]
    exact ⟨.refl s, .refl b⟩

/-- `drain_then_reap`. -/
theorem notice_moves (hS : Q.Sound) (cmp : CmpOptions) (now id : Nat) (s : Quic I Q) (b : QBridge I A)
    (hb : s.bridges.get? id = some b) (ht : b.isTerminal = true) :
    Moves cfg env X T s (s.drained id s.calls (drainThenReap cfg env T Q cmp s.ep s.pool.table b now)) ∧
    Alike b (drainThenReap cfg env T Q cmp s.ep s.pool.table b now).2.1 ∧
    (b.isTerminal = true → (drainThenReap cfg env T Q cmp s.ep s.pool.table b now).2.1.isTerminal = true) ∧
    (drainThenReap cfg env T Q cmp s.ep s.pool.table b now).2.1.stream.endpointEvents = [] := by
  obtain ⟨h1, h2, h3, h5⟩ := drain_moves (cfg := cfg) (env := env) (X := X) (T := T) hS cmp now id
    b.stream.endpointEvents.length s b [] s.calls hb (.inl ht) (by simp)
  unfold drainThenReap
  dsimp only
  refine ⟨?_, h2, h3, h5 (Nat.le_refl _)⟩
  have hn : ∀ c : Bool, Plain (.streamEvent (if c then .streamErrored else .streamClosed) now : Ep.Op I A) := by
    intro c; cases c <;> trivial
  generalize drainEvents cfg env T Q cmp now b.stream.endpointEvents.length s.ep s.pool.table b [] = r at h1 h2 h3 h5 ⊢
  have h4 := h1.snoc (.call (some id) _ (hn (r.2.1.isFailed || r.2.1.stream.isFailed)))
  unfold callEp at h4
  simp only [Ep.step, drained] at h4
  unfold drained
  rw [List.map_append, ← List.append_assoc]
  exact h4

theorem complete_fields (s : Quic I Q) (id : Nat) (ok : Bool) :
    (s.complete cfg env id ok).hot = s.hot ∧ (s.complete cfg env id ok).doom = s.doom ∧
    (s.complete cfg env id ok).hand = s.hand ∧ (s.complete cfg env id ok).limbo = s.limbo ∧
    (s.complete cfg env id ok).byConn = s.byConn ∧ (s.complete cfg env id ok).bridges = s.bridges ∧
    (s.complete cfg env id ok).pool = s.pool := by
  unfold complete
  split
  · exact ⟨rfl, rfl, rfl, rfl, rfl, rfl, rfl⟩
  · split <;> exact ⟨rfl, rfl, rfl, rfl, rfl, rfl, rfl⟩

theorem freeSlot_fields (s : Quic I Q) (ch : Nat) :
    (s.freeSlot ch).hot = s.hot ∧ (s.freeSlot ch).doom = s.doom ∧ (s.freeSlot ch).hand = s.hand ∧
    (s.freeSlot ch).limbo = s.limbo ∧ (s.freeSlot ch).byConn = s.byConn := by
  unfold freeSlot
  split <;> exact ⟨rfl, rfl, rfl, rfl, rfl⟩

theorem unslot_fields (s : Quic I Q) (ch slot : Nat) :
    (s.unslot ch slot).hot = s.hot ∧ (s.unslot ch slot).doom = s.doom ∧ (s.unslot ch slot).hand = s.hand ∧
    (s.unslot ch slot).limbo = s.limbo := by
  unfold unslot
  split
  · exact ⟨rfl, rfl, rfl, rfl⟩
  · split <;> exact ⟨rfl, rfl, rfl, rfl⟩

theorem reapBridge_fields (s : Quic I Q) (id : Nat) (b : QBridge I A) (ch : Nat) (lost : Bool) :
    (s.reapBridge cfg env id b ch lost).hot = s.hot ∧
    (s.reapBridge cfg env id b ch lost).doom = (if lost then s.doom.tail else s.doom) ∧
    (s.reapBridge cfg env id b ch lost).hand = s.hand ∧ (s.reapBridge cfg env id b ch lost).limbo = s.limbo ∧
    (lost = true → (s.reapBridge cfg env id b ch lost).byConn = s.byConn) := by
  unfold reapBridge
  dsimp only
  have hU : ∃ U : Quic I Q, U = s.unindex id ch b.sid := ⟨_, rfl⟩
  obtain ⟨U, hU⟩ := hU
  rw [← hU]
  obtain ⟨c1, c2, c3, c4, c5, _, _⟩ := complete_fields (cfg := cfg) (env := env)
    (if b.eager then (if lost then { U with doom := U.doom.tail }
      else U.unslot ch b.slot).freeSlot ch
      else if lost then { U with doom := U.doom.tail }
        else U.unslot ch b.slot) id (!b.isFailed)
  rw [c1, c2, c3, c4, c5]
  clear c1 c2 c3 c4 c5
  have key : ∀ s' : Quic I Q, s'.hot = s.hot → s'.doom = (if lost then s.doom.tail else s.doom) →
      s'.hand = s.hand → s'.limbo = s.limbo → (lost = true → s'.byConn = s.byConn) →
      (if b.eager then s'.freeSlot ch else s').hot = s.hot ∧
      (if b.eager then s'.freeSlot ch else s').doom = (if lost then s.doom.tail else s.doom) ∧
      (if b.eager then s'.freeSlot ch else s').hand = s.hand ∧
      (if b.eager then s'.freeSlot ch else s').limbo = s.limbo ∧
      (lost = true → (if b.eager then s'.freeSlot ch else s').byConn = s.byConn) := by
    intro s' h1 h2 h3 h4 h5
    cases b.eager
    · exact ⟨h1, h2, h3, h4, h5⟩
    · obtain ⟨f1, f2, f3, f4, f5⟩ := freeSlot_fields s' ch
      exact ⟨f1.trans h1, f2.trans h2, f3.trans h3, f4.trans h4, fun h => f5.trans (h5 h)⟩
  cases lost with
  | true => subst hU; exact key _ rfl rfl rfl rfl (fun _ => rfl)
  | false =>
    obtain ⟨u1, u2, u3, u4⟩ := unslot_fields U ch b.slot
    subst hU
    exact key _ u1 u2 u3 u4 (fun h => by cases h)

/-- `drain_then_reap` and what follows it. -/
theorem drainReap_moves (hS : Q.Sound) {s : Quic I Q} {id : Nat} {b : QBridge I A} {ch : Nat} (now : Nat) (lost : Bool)
    (hb : s.bridges.get? id = some b) (ht : b.isTerminal = true)
    (hl : if lost then s.hot = some ch ∧ ∃ rest, s.doom = id :: rest else b.ch = ch ∧ s.doom = []) :
    Moves cfg env X T s (s.drainReap cfg env T id b ch now lost) ∧
    (s.drainReap cfg env T id b ch now lost).hot = s.hot ∧
    (s.drainReap cfg env T id b ch now lost).doom = (if lost then s.doom.tail else s.doom) ∧
    (s.drainReap cfg env T id b ch now lost).hand = s.hand ∧
    (s.drainReap cfg env T id b ch now lost).limbo = s.limbo ∧
    (lost = true → (s.drainReap cfg env T id b ch now lost).byConn = s.byConn) := by
  obtain ⟨h1, h2, h3, h5⟩ := notice_moves (cfg := cfg) (env := env) (X := X) (T := T) hS s.cmp now id s b hb ht
  unfold drainReap
  dsimp only [table]
  generalize drainThenReap cfg env T Q s.cmp s.ep s.pool.table b now = r at h1 h2 h3 h5 ⊢
  have h4 : Moves cfg env X T s (s.putDrain id r) := h1.snoc (.book ..)
  have hm := Move.reap (cfg := cfg) (env := env) (X := X) (T := T) (s := s.putDrain id r) id ch r.2.1 lost
    (get?_insert_self s.bridges id r.2.1) (h3 ht) h5 (by rw [h2.ch]; exact hl)
  exact ⟨h4.snoc hm, reapBridge_fields (s.putDrain id r) id r.2.1 ch lost⟩

/-- `pump_one_bridge`. -/
theorem pumpOne_went (hS : Q.Sound) (now : Nat) (s : Quic I Q) (id : Nat) (hd : s.doom = []) :
    Went cfg env X T s (s.pumpOne cfg env T now id).1 := by
  unfold pumpOne
  cases hb : s.bridges.get? id with
  | none => exact .refl s
  | some b =>
    dsimp only
    have h0 : Went cfg env X T s (s.begin id b) := (Went.one (.tweak hb (.flag b false))).snoc (.book ..)
    refine h0.trans ?_
    have hd0 : (s.begin id b).doom = [] := hd
    have hb0 : (s.begin id b).bridges.get? id = some { b with queued := false } := get?_insert_self _ _ _
    have hch0 : ({ b with queued := false } : QBridge I A).ch = b.ch := rfl
    generalize s.begin id b = s0 at hd0 hb0 ⊢
    generalize ({ b with queued := false } : QBridge I A) = b0 at hb0 hch0 ⊢
    obtain ⟨p2, q1, q2⟩ := pump_spec (CI := env.CI) (CA := env.CA) (T := T) (D := s0.hot = some b0.ch) hS b0 s0.pool.table now
    dsimp only [table]
    generalize b0.pumpIn env.CI env.CA T Q s0.pool.table now = w at p2 q1 q2 ⊢
    generalize w.1.pumpOut Q T w.2 now = v at q1 q2 ⊢
    have hv : Went cfg env X T s0 (s0.putWork id v) := by
      refine ⟨?_, rfl, rfl, rfl, rfl⟩
      have g1 := work_moves (cfg := cfg) (X := X) hb0 q1 p2
      exact (g1.snoc (.conn (ch := b0.ch) q2)).snoc (.book ..)
    have hbv : (s0.putWork id v).bridges.get? id = some v.1 := get?_insert_self _ _ _
    have hcv : v.1.ch = b.ch := q1.alike.ch.trans hch0
    refine hv.trans ?_
    have hd1 : (s0.putWork id v).doom = [] := hd0
    unfold afterPump
    dsimp only [table]
    generalize s0.putWork id v = s1 at hbv hd1 ⊢
    split
    · next ht =>
      obtain ⟨m, m1, m2, m3, m4, _⟩ := drainReap_moves (cfg := cfg) (env := env) (X := X) (T := T) hS
        (s := s1) (ch := b.ch) now false hbv ht (by simpa using ⟨hcv, hd1⟩)
      exact ⟨m, m1, by simpa using m2, m3, m4⟩
    · obtain ⟨m1, m2⟩ := payload_moves (cfg := cfg) (env := env) (X := X) (T := T) hS s1.cmp now id
        s1 v.1 hbv
      generalize drainPayloadOnly cfg env T Q s1.cmp s1.ep s1.pool.table v.1 now = r at m1 m2 ⊢
      have m3 : Went cfg env X T s1 (s1.putDrain id r) :=
        ⟨m1.snoc (.book ..), rfl, rfl, rfl, rfl⟩
      have hbr : (s1.putDrain id r).bridges.get? id = some r.2.1 := get?_insert_self _ _ _
      unfold afterDrain
      dsimp only
      split
      · next ht =>
        obtain ⟨n, n1, n2, n3, n4, _⟩ := drainReap_moves (cfg := cfg) (env := env) (X := X) (T := T) hS
          (s := s1.putDrain id r) (ch := b.ch) now false hbr ht
          (by simpa using ⟨m2.ch.trans hcv, show (s1.putDrain id r).doom = [] from hd1⟩)
        exact m3.trans ⟨n, n1, by simpa using n2, n3, n4⟩
      · exact m3.snoc (.book ..)

theorem pumps_went (hS : Q.Sound) (now : Nat) (l : List Nat) (s : Quic I Q) (hd : s.doom = []) :
    Went cfg env X T s (l.foldl (fun s id => (s.pumpOne cfg env T now id).1) s) :=
  Went.fold _ (P := fun s => s.doom = []) (fun _ _ h hp => h.doom.trans hp) (fun s x h => pumpOne_went hS now s x h) l s hd

theorem pumpAll_went (hS : Q.Sound) (now : Nat) (s : Quic I Q) (hd : s.doom = []) :
    Went cfg env X T s (s.pumpAll cfg env T now) :=
  (Went.one (.book ..)).trans (pumps_went hS now _ { s with tick := s.tick + 1 } hd)

theorem readyLoop_went (hS : Q.Sound) (now : Nat) : ∀ (n : Nat) (s : Quic I Q) (conns : List Nat), s.doom = [] →
    Went cfg env X T s (s.readyLoop cfg env T now n conns).1 := by
  intro n
  induction n with
  | zero => intro s conns _; exact .refl s
  | succ k ih =>
    intro s conns hd
    simp only [readyLoop]
    split
    · exact .refl s
    · next id rest _ =>
      have h0 : Went cfg env X T s { s with ready := rest } := .one (.book ..)
      have h1 := h0.trans (pumpOne_went (cfg := cfg) (env := env) (X := X) (T := T) hS now { s with ready := rest } id hd)
      exact h1.trans (ih _ _ (h1.doom.trans hd))

theorem drainReady_went (hS : Q.Sound) (now : Nat) (budget : Option Nat) (s : Quic I Q) (hd : s.doom = []) :
    Went cfg env X T s (s.drainReady cfg env T now budget).1 := readyLoop_went hS now _ s [] hd

end Verif.Quic
