import Verif.Proof.QuicLift2
/-
The connections and the calls of the QUIC node as sequences of moves.
-/
namespace Verif.Quic
open Verif Map QBridge
variable {I A : Type} [DecidableEq I] [DecidableEq A] {Q : Quinn A}
variable {cfg : Cfg I A} {env : Env I A} {X : QCfg} {T : TEnv}

theorem notice_went (s : Quic I Q) (ch sid : Nat) (f : QBridge I A → QBridge I A)
    (hf : ∀ b, BMoves env.CI env.CA T b (f b)) : Went cfg env X T s (s.notice ch sid f) := by
  unfold notice
  split
  · exact .refl s
  · next id _ =>
    split
    · exact .refl s
    · next b hb => exact (tweaks_went hb (hf b)).trans (enqueue_went _ _)

/-- An endpoint that accepts no stream is left as it was. -/
theorem accept_none {e : Ep I A} {peer : A} {now : Nat}
    (h : ∀ st, (e.step cfg env (.acceptStream peer now)).2 ≠ .stream (some st)) :
    (e.step cfg env (.acceptStream peer now)).1 = e := by
  revert h
  simp only [Ep.step, Ep.acceptStream]
  split
  · intro _; rfl
  · intro h; exact absurd rfl (h _)

theorem acceptOne_went (hS : Q.Sound) {s : Quic I Q} {ch : Nat} {e : QConn Q.C Q.V A} (sid now : Nat)
    (hh : s.hot = some ch) (hd : s.doom = []) (he : s.pool.table.conns.get? ch = some e) :
    Went cfg env X T s (s.acceptOne cfg env X ch sid e.peer now) := by
  unfold acceptOne
  split
  · exact use_went s ch _ (.inl hh)
  · next hc =>
    unfold callEp
    split
    · next s1 st hx =>
      have hx1 := congrArg Prod.fst hx
      have hx2 := congrArg Prod.snd hx
      dsimp only at hx1 hx2
      subst hx1
      refine Went.trans (Went.one (Move.accept ch sid now e st hh hd he ?_ hx2)) (enqueue_went _ _)
      intro m hm
      rw [hm] at hc
      simpa using hc
    · next s1 o hn hx =>
      have hx1 := congrArg Prod.fst hx
      have hx2 := congrArg Prod.snd hx
      dsimp only at hx1 hx2
      subst hx1
      refine Went.trans (Went.one (Move.noop none (.acceptStream e.peer now)
        (accept_none (fun st hst => hn st (hx2.symm.trans hst))) (by intro r; simp) (by intro ev now; simp)))
        (use_went _ ch _ (.inl hh))

theorem acceptLoop_went (hS : Q.Sound) (ch now : Nat) : ∀ (fuel : Nat) (s : Quic I Q), s.hot = some ch → s.doom = [] →
    Went cfg env X T s (s.acceptLoop cfg env X ch now fuel) := by
  intro fuel
  induction fuel with
  | zero => intro s _ _; exact .refl s
  | succ k ih =>
    intro s hh hd
    simp only [acceptLoop, ConnTable.on, table]
    cases he : s.pool.table.conns.get? ch with
    | none => exact .refl s
    | some e =>
      have hp := via_step (D := s.hot = some ch) s.pool.table ch Q.acceptBi (.inl hh)
      unfold ConnTable.on at hp
      rw [he] at hp
      have hp1 := put_went (cfg := cfg) (env := env) (X := X) (T := T) ch ch hp
      have hv := (via_fields (Q := Q) e Q.acceptBi).1
      dsimp only at hp1 ⊢
      generalize e.via Q Q.acceptBi = v at hp1 hv ⊢
      obtain ⟨v, o⟩ := v
      dsimp only at hp1 hv
      split
      · next h => cases h
      · next t o h =>
        cases h
        exact hp1
      · next t sid peer h =>
        cases h
        have hg : (s.putTable ch { s.pool.table with
            conns := s.pool.table.conns.insert ch v }).pool.table.conns.get? ch =
            some v := get?_insert_self _ _ _
        have h2 := acceptOne_went (cfg := cfg) (env := env) (X := X) (T := T) hS (s := s.putTable ch { s.pool.table with
            conns := s.pool.table.conns.insert ch v }) sid now hh hd hg
        rw [hv] at h2
        have h3 := hp1.trans h2
        exact h3.trans (ih _ (h3.hot.trans hh) (h3.doom.trans hd))

theorem onEvent_went (hS : Q.Sound) {s : Quic I Q} {ch : Nat} (now : Nat) (ev : ConnEv) (hh : s.hot = some ch)
    (hd : s.doom = []) : Went cfg env X T s (s.onEvent cfg env X ch now ev) := by
  cases ev with
  | opened => exact acceptLoop_went hS ch now _ s hh hd
  | readable sid => exact notice_went s ch sid _ (fun b => .refl b)
  | writable sid => exact notice_went s ch sid _ (fun b => .refl b)
  | finished sid => exact notice_went s ch sid _ (fun b => .one (.sendFin b))
  | stopped sid =>
    exact (use_went s ch _ (.inl hh)).trans (notice_went _ ch sid _ (fun b => .one (.drop b .transport)))
  | lost => exact .refl s
  | available => exact .refl s
  | other => exact .refl s

theorem pollLoop_went (hS : Q.Sound) (ch now : Nat) : ∀ (fuel : Nat) (s : Quic I Q) (a b : Bool), s.hot = some ch →
    s.doom = [] → Went cfg env X T s (s.pollLoop cfg env X ch now fuel a b).1 := by
  intro fuel
  induction fuel with
  | zero => intro s a b _ _; exact .refl s
  | succ k ih =>
    intro s a b hh hd
    have hp := put_went (cfg := cfg) (env := env) (X := X) (T := T) (s := s) ch ch
      (via_step (D := s.hot = some ch) s.pool.table ch Q.poll (.inl hh))
    simp only [pollLoop]
    split
    · exact .refl s
    · next t hx => rw [table] at hx; rw [hx] at hp; exact hp
    · next t ev hx =>
      rw [table] at hx; rw [hx] at hp
      have h2 := hp.trans (onEvent_went (cfg := cfg) (env := env) (X := X) (T := T) hS now ev (hp.hot.trans hh) (hp.doom.trans hd))
      exact h2.trans (ih _ _ _ (h2.hot.trans hh) (h2.doom.trans hd))

/-- Any calls on the entry of the connection being serviced. -/
theorem conn_step {D : Prop} {R : Type} (hD : D) (t : ConnTable Q.C Q.V A) (ch : Nat) (f : QConn Q.C Q.V A → QConn Q.C Q.V A × R)
    (hf : ∀ e, (f e).1.peer = e.peer ∧ (f e).1.inbound = e.inbound ∧ (f e).1.pendingIndexed = e.pendingIndexed ∧
      (f e).1.outbound = e.outbound ∧ (e.established = true → (f e).1.established = true)) :
    ConnStep Q D ch t (t.on Q ch f).1 := by
  unfold ConnTable.on
  cases he : t.conns.get? ch with
  | none => exact .inl rfl
  | some e =>
    obtain ⟨h1, h2, h3, h4, h5⟩ := hf e
    exact .inr ⟨e, _, he, rfl, h1, h2, h3, h4, h5, .inl hD⟩

theorem via_all {R : Type} (e : QConn Q.C Q.V A) (f : Q.C → Q.C × R) :
    (e.via Q f).1.peer = e.peer ∧ (e.via Q f).1.inbound = e.inbound ∧ (e.via Q f).1.pendingIndexed = e.pendingIndexed ∧
      (e.via Q f).1.outbound = e.outbound ∧ (e.established = true → (e.via Q f).1.established = true) := by
  obtain ⟨v1, v2, v3, v4⟩ := via_fields (Q := Q) e f
  obtain ⟨t1, t2, t3, t4, t5, t6, t7, t8⟩ := touch_fields (Q := Q) e
  exact ⟨v1, v2, v3, t5, v4⟩

theorem feed_went {s : Quic I Q} {ch : Nat} (now : Nat) (hh : s.hot = some ch) : Went cfg env X T s (s.feed ch now) := by
  refine put_went ch ch (conn_step hh _ _ _ (fun e => ?_))
  have h : ∀ (l : List Q.V) (e : QConn Q.C Q.V A),
      let e' := l.foldl (fun (e : QConn Q.C Q.V A) v => (e.via Q (fun c => (Q.event c v, ()))).1) e
      e'.peer = e.peer ∧ e'.inbound = e.inbound ∧ e'.pendingIndexed = e.pendingIndexed ∧
      e'.outbound = e.outbound ∧ (e.established = true → e'.established = true) := by
    intro l
    induction l with
    | nil => intro e; exact ⟨rfl, rfl, rfl, rfl, id⟩
    | cons v l ih =>
      intro e
      obtain ⟨a1, a2, a3, a4, a5⟩ := ih (e.via Q (fun c => (Q.event c v, ()))).1
      obtain ⟨b1, b2, b3, b4, b5⟩ := via_all e (fun c => (Q.event c v, ()))
      exact ⟨a1.trans b1, a2.trans b2, a3.trans b3, a4.trans b4, fun h => a5 (b5 h)⟩
  obtain ⟨a1, a2, a3, a4, a5⟩ := h e.pendingEvents { e with pendingEvents := [] }
  obtain ⟨b1, b2, b3, b4, b5⟩ := via_all (e.pendingEvents.foldl (fun (e : QConn Q.C Q.V A) v => (e.via Q (fun c => (Q.event c v, ()))).1)
      { e with pendingEvents := [] }) (fun c => (Q.timeout c now, ()))
  exact ⟨b1.trans a1, b2.trans a2, b3.trans a3, b4.trans a4, fun h => b5 (a5 h)⟩

theorem endpointLoop_went (ch : Nat) : ∀ (fuel : Nat) (s : Quic I Q), s.hot = some ch →
    Went cfg env X T s (s.endpointLoop ch fuel) := by
  intro fuel
  induction fuel with
  | zero => intro s _; exact .refl s
  | succ k ih =>
    intro s hh
    have hp := put_went (cfg := cfg) (env := env) (X := X) (T := T) (s := s) ch ch
      (via_step (D := s.hot = some ch) s.pool.table ch Q.pollEndpoint (.inl hh))
    simp only [endpointLoop]
    split
    · exact .refl s
    · next t hx => rw [table] at hx; rw [hx] at hp; exact hp
    · next t hx => rw [table] at hx; rw [hx] at hp; exact hp.trans (ih _ (hp.hot.trans hh))
    · next t w hx =>
      rw [table] at hx; rw [hx] at hp
      dsimp only at hp
      split
      · exact (hp.snoc (.book (quinn := (Q.endpointEvent s.pool.quinn ch w).1) ..)).trans (ih _ hh)
      · next v _ =>
        have h2 := hp.trans (put_went (cfg := cfg) (env := env) (X := X) (T := T) ch ch
          (conn_step (D := s.hot = some ch) hh t ch (fun e => ({ e with pendingEvents := e.pendingEvents ++ [v] }, ()))
            (fun e => ⟨rfl, rfl, rfl, rfl, id⟩)))
        exact (h2.snoc (.book (quinn := (Q.endpointEvent s.pool.quinn ch w).1) (stale := residue s.stale ch) ..)).trans (ih _ hh)

theorem push_fields (s : Quic I Q) (src : A) (bytes : Bytes) :
    (s.pushIngress src bytes).hot = s.hot ∧ (s.pushIngress src bytes).doom = s.doom ∧
    (s.pushIngress src bytes).hand = s.hand ∧ (s.pushIngress src bytes).limbo = s.limbo := by
  unfold pushIngress; split <;> exact ⟨rfl, rfl, rfl, rfl⟩

theorem push_went (s : Quic I Q) (src : A) (bytes : Bytes) : Went cfg env X T s (s.pushIngress src bytes) := by
  obtain ⟨h1, h2, h3, h4⟩ := push_fields s src bytes
  exact ⟨.one (.push src bytes), h1, h2, h3, h4⟩

theorem datagramLoop_went (ch : Nat) : ∀ (fuel : Nat) (s : Quic I Q), s.hot = some ch →
    Went cfg env X T s (s.datagramLoop ch fuel) := by
  intro fuel
  induction fuel with
  | zero => intro s _; exact .refl s
  | succ k ih =>
    intro s hh
    have hp := put_went (cfg := cfg) (env := env) (X := X) (T := T) (s := s) ch ch
      (conn_step (D := s.hot = some ch) hh s.pool.table ch
        (fun e => ((e.via Q Q.recvDgram).1, (e.via Q Q.recvDgram).2, e.peer)) (fun e => via_all e Q.recvDgram))
    simp only [datagramLoop]
    split
    · exact .refl s
    · next t _ hx => rw [table] at hx; rw [hx] at hp; exact hp
    · next t bytes peer hx =>
      rw [table] at hx; rw [hx] at hp
      have h2 := hp.trans (push_went _ peer bytes)
      exact h2.trans (ih _ (h2.hot.trans hh))

/-- The connection was serviced. -/
structure Cooled (cfg : Cfg I A) (env : Env I A) (X : QCfg) (T : TEnv) (s s' : Quic I Q) : Prop where
  moves : Moves cfg env X T s s'
  hot : s'.hot = none
  doom : s'.doom = []
  hand : s'.hand = s.hand
  limbo : s'.limbo = s.limbo

theorem Cooled.after {a b c : Quic I Q} (h : Went cfg env X T a b) (h2 : Cooled cfg env X T b c) : Cooled cfg env X T a c :=
  ⟨h.moves.trans h2.moves, h2.hot, h2.doom, h2.hand.trans h.hand, h2.limbo.trans h.limbo⟩

theorem Cooled.then {a b c : Quic I Q} (h : Cooled cfg env X T a b) (h2 : Went cfg env X T b c) : Cooled cfg env X T a c :=
  ⟨h.moves.trans h2.moves, h2.hot.trans h.hot, h2.doom.trans h.doom, h2.hand.trans h.hand, h2.limbo.trans h.limbo⟩

theorem reapLost_moves (hS : Q.Sound) (ch now : Nat) : ∀ (l : List Nat) (s : Quic I Q), s.doom = l → s.hot = some ch →
    Moves cfg env X T s (l.foldl (reapLost cfg env T ch now) s) ∧
    (l.foldl (reapLost cfg env T ch now) s).hot = s.hot ∧ (l.foldl (reapLost cfg env T ch now) s).doom = [] ∧
    (l.foldl (reapLost cfg env T ch now) s).hand = s.hand ∧ (l.foldl (reapLost cfg env T ch now) s).limbo = s.limbo ∧
    (l.foldl (reapLost cfg env T ch now) s).byConn = s.byConn := by
  intro l
  induction l with
  | nil => intro s hd _; exact ⟨.refl s, rfl, hd, rfl, rfl, rfl⟩
  | cons id l ih =>
    intro s hd hh
    have one : Moves cfg env X T s (s.reapLost cfg env T ch now id) ∧ (s.reapLost cfg env T ch now id).hot = s.hot ∧
        (s.reapLost cfg env T ch now id).doom = s.doom.tail ∧ (s.reapLost cfg env T ch now id).hand = s.hand ∧
        (s.reapLost cfg env T ch now id).limbo = s.limbo ∧ (s.reapLost cfg env T ch now id).byConn = s.byConn := by
      unfold reapLost
      cases hb : s.bridges.get? id with
      | none => exact ⟨.one (.doomGone id l hd hb), rfl, rfl, rfl, rfl, rfl⟩
      | some b =>
        have h0 := tweaks (cfg := cfg) (X := X) (T := T) hb (BMoves.one (.fail (CI := env.CI) (CA := env.CA) b .connectionLost))
        obtain ⟨m1, m2, m3, m4, m5, m6⟩ := drainReap_moves (cfg := cfg) (env := env) (X := X) (T := T) hS
          (s := s.tweak id (b.fail .connectionLost)) (ch := ch) now true
          (get?_insert_self s.bridges id _) (fail_terminal b _) (by simpa using ⟨hh, l, hd⟩)
        exact ⟨h0.trans m1, m2, m3, m4, m5, m6 rfl⟩
    obtain ⟨a1, a2, a3, a4, a5, a6⟩ := one
    rw [hd, List.tail_cons] at a3
    obtain ⟨b1, b2, b3, b4, b5, b6⟩ := ih _ a3 (a2.trans hh)
    exact ⟨a1.trans b1, b2.trans a2, b3, b4.trans a4, b5.trans a5, b6.trans a6⟩

theorem settleConn_cooled (hS : Q.Sound) {s : Quic I Q} {ch : Nat} (now : Nat) (before lost credit : Bool)
    (hh : s.hot = some ch) (hd : s.doom = []) :
    Cooled cfg env X T s (s.settleConn cfg env T ch now before lost credit).1 := by
  unfold settleConn table
  cases he : s.pool.table.conns.get? ch with
  | none =>
    refine ⟨.one (.cool hd ?_), rfl, hd, rfl, rfl⟩
    intro ch' e h1 h2
    rw [hh] at h1; cases h1; rw [he] at h2; cases h2
  | some e =>
    dsimp only
    have key : ∀ s' : Quic I Q, Moves cfg env X T s s' → s'.hot = some ch → s'.doom = [] → s'.hand = s.hand → s'.limbo = s.limbo →
        (∀ e, s'.pool.table.conns.get? ch = some e → Q.drained e.conn = true → s'.byConn.get? ch = none) → ∀ ev,
        Cooled cfg env X T s { s'.putTable ch (s'.pool.table.reconcile Q ch) with hot := none, eventful := ev } := by
      intro s' h1 h2 h3 h4 h5 h6 ev
      refine ⟨((h1.snoc (.cool h3 ?_)).snoc (.reconcile ch)).snoc (.book (eventful := ev) (stale := residue s'.stale ch) ..), rfl, h3, h4, h5⟩
      intro ch' e g1 g2 g3
      rw [h2] at g1; cases g1
      exact h6 e g2 g3
    split
    · obtain ⟨m1, m2, m3, m4, m5, m6⟩ := reapLost_moves (cfg := cfg) (env := env) (X := X) (T := T) hS ch now
        (s.takeBucket ch).doom (s.takeBucket ch) rfl hh
      refine key _ ((Moves.one (.takeBucket ch hh hd)).trans m1) (m2.trans hh) m3 m4 m5 ?_ _
      intro _ _ _
      rw [m6]
      exact (get?_erase _ _ _).trans (if_pos rfl)
    · next hn =>
      refine key s (.refl s) hh hd rfl rfl ?_ _
      intro e' h1 h2
      rw [he] at h1; cases h1
      rw [h2] at hn
      simp at hn

theorem serviceOne_cooled (hS : Q.Sound) {s : Quic I Q} (ch now : Nat) (hh : s.hot = none ∨ s.hot = some ch) (hd : s.doom = []) :
    Cooled cfg env X T s (s.serviceOne cfg env X T ch now).1 := by
  unfold serviceOne table
  cases he : s.pool.table.conns.get? ch with
  | none =>
    refine ⟨.one (.cool hd ?_), rfl, hd, rfl, rfl⟩
    intro ch' e h1 h2
    rcases hh with hh | hh
    · rw [hh] at h1; cases h1
    · rw [hh] at h1; cases h1; rw [he] at h2; cases h2
  | some e =>
    dsimp only
    have h1 := feed_went (cfg := cfg) (env := env) (X := X) (T := T) (s := { s with hot := some ch }) now rfl
    have h2 := h1.trans (pollLoop_went hS ch now Q.fuel _ false false (h1.hot.trans rfl) (h1.doom.trans hd))
    have h3 := h2.trans (endpointLoop_went ch Q.fuel _ h2.hot)
    have h4 := h3.trans (datagramLoop_went ch Q.fuel _ h3.hot)
    have h5 := settleConn_cooled (cfg := cfg) (env := env) (X := X) (T := T) hS now e.established
      (({ s with hot := some ch }.feed ch now).pollLoop cfg env X ch now Q.fuel false false).2.1
      (({ s with hot := some ch }.feed ch now).pollLoop cfg env X ch now Q.fuel false false).2.2 h4.hot (h4.doom.trans hd)
    have h6 := Cooled.after h4 h5
    exact ⟨(Moves.one (.heat ch hh)).trans h6.moves, h6.hot, h6.doom, h6.hand, h6.limbo⟩

/-- Between calls. -/
structure Idle (s : Quic I Q) : Prop where
  calm : Calm s
  hot : s.hot = none

/-- From one such state to another. -/
structure Ran (cfg : Cfg I A) (env : Env I A) (X : QCfg) (T : TEnv) (s s' : Quic I Q) : Prop where
  moves : Moves cfg env X T s s'
  idle : Idle s'

theorem Ran.refl {s : Quic I Q} (h : Idle s) : Ran cfg env X T s s := ⟨.refl s, h⟩
theorem Ran.went {a b c : Quic I Q} (h : Ran cfg env X T a b) (h2 : Idle b → Went cfg env X T b c) : Ran cfg env X T a c :=
  ⟨h.moves.trans (h2 h.idle).moves, (h2 h.idle).calm h.idle.calm, (h2 h.idle).hot.trans h.idle.hot⟩
theorem Ran.then {a b c : Quic I Q} (h : Ran cfg env X T a b) (h2 : Idle b → Ran cfg env X T b c) : Ran cfg env X T a c :=
  ⟨h.moves.trans (h2 h.idle).moves, (h2 h.idle).idle⟩
theorem Idle.went {a b : Quic I Q} (h : Idle a) (h2 : Went cfg env X T a b) : Ran cfg env X T a b := (Ran.refl h).went (fun _ => h2)

theorem Ran.fold {α : Type} (f : Quic I Q → α → Quic I Q) (hf : ∀ s x, Idle s → Ran cfg env X T s (f s x)) :
    ∀ (l : List α) (s : Quic I Q), Idle s → Ran cfg env X T s (l.foldl f s) := by
  intro l
  induction l with
  | nil => intro s hs; exact .refl hs
  | cons x l ih => intro s hs; exact (hf s x hs).then (fun h => ih _ h)

theorem forget_went {s s' : Quic I Q} {ch : Nat} (h : s.reapConn ch = (s', true)) : Went cfg env X T s' { s' with byConn := s'.byConn.erase ch } := by
  refine .one (.forget ch ?_)
  revert h
  unfold reapConn ConnTable.reapIfDrained table
  cases he : s.pool.table.conns.get? ch with
  | none => intro h; cases h
  | some e =>
    dsimp only
    cases hq : Q.drained e.conn with
    | false => intro h; cases h
    | true => intro h; cases h; exact (get?_erase _ _ _).trans (if_pos rfl)

theorem flushOne_went (hS : Q.Sound) (ch now : Nat) (s : Quic I Q) (hh : s.hot = none) :
    Went cfg env X T s (s.flushOne ch now) := by
  have h0 := reapConn_went (cfg := cfg) (env := env) (X := X) (T := T) s ch hh
  unfold flushOne
  split
  · next s' hx => rw [hx] at h0; exact h0.trans (forget_went hx)
  · next s' hx => rw [hx] at h0; exact h0.trans (collectConn_went hS now _ ch)

theorem resume_went (hS : Q.Sound) (now : Nat) (peer : Option A) (d : Quic I Q × Option Nat × List Nat) (hc : Calm d.1) :
    Went cfg env X T d.1 (resume cfg env X T d peer now).1 := by
  unfold resume
  split
  · exact .refl _
  · next p =>
    have h1 := (servicePeer_went (cfg := cfg) (env := env) (X := X) (T := T) hS p now (some Q_DIALS) d.1 hc).trans
      (enqueueAll_went (d.1.servicePeer cfg env X p now (some Q_DIALS)).2.out.minted _)
    exact h1.trans (drainReady_went hS now _ _ (h1.doom.trans hc.doom))

theorem serviceConnection_ran (hS : Q.Sound) {s : Quic I Q} (ch now : Nat) (hh : s.hot = none ∨ s.hot = some ch) (hc : Calm s) :
    Ran cfg env X T s (s.serviceConnection cfg env X T ch now) := by
  have h1 := serviceOne_cooled (cfg := cfg) (env := env) (X := X) (T := T) hS ch now hh hc.doom
  have r1 : Ran cfg env X T s (s.serviceOne cfg env X T ch now).1 :=
    ⟨h1.moves, ⟨h1.doom, h1.hand.trans hc.hand, h1.limbo.trans hc.limbo⟩, h1.hot⟩
  have r2 := r1.went (fun h => drainReady_went (cfg := cfg) (env := env) (X := X) (T := T) hS now (some Q_PUMPS) _ h.calm.doom)
  have r3 := r2.went (fun h => resume_went hS now (match (s.serviceOne cfg env X T ch now).2.credit with
    | some p => some p
    | none => ((s.serviceOne cfg env X T ch now).1.drainReady cfg env T now (some Q_PUMPS)).1.establishedPeer ch
      (s.serviceOne cfg env X T ch now).2) _ h.calm)
  have r4 := r3.went (fun h => flushOne_went hS ch now _ h.hot)
  exact (((r4.went (fun _ => collect_went hS now _ _)).went (fun h => serviceFreed_went hS now _ _ _ h.calm)).went
      (fun _ => collect_went hS now _ _)).went (fun _ => reconcile_went _ now)

theorem serviceQuinn_ran (hS : Q.Sound) {s : Quic I Q} (now : Nat) (hi : Idle s) :
    Ran cfg env X T s (s.serviceQuinn cfg env X T now).1 := by
  unfold serviceQuinn
  have h : ∀ (l : List Nat) (r : Quic I Q × List A), Idle r.1 → Ran cfg env X T r.1 (l.foldl (fun r ch =>
      let m := r.1.serviceOne cfg env X T ch now
      (m.1, (m.2.credit.toList ++ (m.1.establishedPeer ch m.2).toList).foldl residue r.2)) r).1 := by
    intro l
    induction l with
    | nil => intro r hr; exact .refl hr
    | cons ch l ih =>
      intro r hr
      have h1 := serviceOne_cooled (cfg := cfg) (env := env) (X := X) (T := T) hS ch now (.inl hr.hot) hr.calm.doom
      have r1 : Ran cfg env X T r.1 (r.1.serviceOne cfg env X T ch now).1 :=
        ⟨h1.moves, ⟨h1.doom, h1.hand.trans hr.calm.hand, h1.limbo.trans hr.calm.limbo⟩, h1.hot⟩
      exact r1.then (fun h => ih (_, _) h)
  exact (hi.went (.one (.book (tick := s.tick + 1) ..))).then (fun h' => h _ (_, _) h')

theorem finalize_ran (hS : Q.Sound) {s : Quic I Q} (now : Nat) (hi : Idle s) : Ran cfg env X T s (s.finalize T now) := by
  unfold finalize
  have h := (hi.went (cfg := cfg) (env := env) (X := X) (T := T) (.one (.book (tick := s.tick + 1) ..))).then
    (fun h => Ran.fold (fun s ch => (s.reapConn ch).1) (fun s ch hs => hs.went (reapConn_went s ch hs.hot))
      (T.order s.tick s.table.conns.keys) { s with tick := s.tick + 1 } h)
  exact (h.went (fun _ => collectAll_went hS now _)).went (fun _ => .one (.book ..))

theorem runTick_ran (hS : Q.Sound) {s : Quic I Q} (now : Nat) (hi : Idle s) : Ran cfg env X T s (s.runTick cfg env X T now) := by
  have h1 := hi.went (pumpAll_went (cfg := cfg) (env := env) (X := X) (T := T) hS now s hi.calm.doom)
  have h2 := h1.went (fun _ => Went.one (.call none (.timeout now) trivial))
  have h3 := h2.then (fun h => serviceQuinn_ran hS now h)
  have h4 := h3.went (fun h => serviceDials_went hS now _ h.calm.hand h.calm.limbo)
  have h5 := h4.went (c := { (((s.pumpAll cfg env T now).callEp cfg env none (.timeout now)).1.serviceQuinn cfg env X T now).1.serviceDials cfg env X T now |>.1 with readyDials := [] })
    (fun _ => .one (.book ..))
  have h6 := h5.went (fun h => pumpAll_went hS now _ h.calm.doom)
  have h7 := h6.went (fun h => serviceFreed_went hS now none none _ h.calm)
  exact h7.then (fun h => finalize_ran hS now h)

theorem flush_ran (hS : Q.Sound) {s : Quic I Q} (now : Nat) (hi : Idle s) : Ran cfg env X T s (s.flush cfg env X T now) := by
  unfold flush
  dsimp only
  have h1 := hi.went (pumpAll_went (cfg := cfg) (env := env) (X := X) (T := T) hS now s hi.calm.doom)
  have h3 := h1.then (fun h => serviceQuinn_ran hS now h)
  have hp : ∀ (l : List A) (s : Quic I Q), Idle s → Ran cfg env X T s (l.foldl (fun s p => (s.servicePeer cfg env X p now none).1) s) :=
    Ran.fold _ (fun s p hs => hs.went (servicePeer_went hS p now none s hs.calm))
  have h4 := h3.then (fun h => hp ((s.pumpAll cfg env T now).serviceQuinn cfg env X T now).2 _ h)
  generalize (((s.pumpAll cfg env T now).serviceQuinn cfg env X T now).2.foldl (fun s p => (s.servicePeer cfg env X p now none).1)
    ((s.pumpAll cfg env T now).serviceQuinn cfg env X T now).1) = s4 at h4 ⊢
  have h5 := h4.went (c := { s4 with readyDials := [] }) (fun _ => .one (.book ..))
  have h6 := h5.then (fun h => hp s4.readyDials _ h)
  have h7 := h6.went (fun h => pumpAll_went hS now _ h.calm.doom)
  have h8 := h7.went (fun h => serviceFreed_went hS now none none _ h.calm)
  exact h8.then (fun h => finalize_ran hS now h)

theorem readyDialLoop_went (hS : Q.Sound) (now : Nat) : ∀ (n : Nat) (r : Quic I Q × Pass), Calm r.1 →
    Went cfg env X T r.1 (readyDialLoop cfg env X now n r).1 := by
  intro n
  induction n with
  | zero => intro r _; exact .refl _
  | succ k ih =>
    intro r hc
    simp only [readyDialLoop]
    split
    · exact .refl _
    · split
      · exact .refl _
      · next p rest _ =>
        have h0 : Went cfg env X T r.1 { r.1 with readyDials := rest } := .one (.book ..)
        have h1 := h0.trans (servicePeer_went hS p now r.2.dials _ (h0.calm hc))
        have h2 := h1.trans (enqueueAll_went ({ r.1 with readyDials := rest }.servicePeer cfg env X p now r.2.dials).2.out.minted _)
        exact h2.trans (ih (_, _) (h2.calm hc))

theorem catchup_ran (hS : Q.Sound) {s : Quic I Q} (now : Nat) (hi : Idle s) :
    Ran cfg env X T s (s.catchupService cfg env X T now) := by
  have h1 := hi.went (readyDialLoop_went (cfg := cfg) (env := env) (X := X) (T := T) hS now (Nat.min Q_VISITS s.readyDials.length)
    (s, { pumps := some Q_PUMPS, dials := some Q_DIALS }) hi.calm)
  exact (((h1.went (fun h => drainReady_went hS now _ _ h.calm.doom)).went (fun h => serviceFreed_went hS now _ _ _ h.calm)).went
    (fun _ => collect_went hS now _ _)).went (fun _ => advance_went _ now)

theorem tryNew_ran (hS : Q.Sound) {s : Quic I Q} (now : Nat) (hi : Idle s) : Ran cfg env X T s (s.tryNew cfg env X T now) := by
  unfold tryNew
  split
  · exact (((hi.went (takeAll_took hS now s hi.calm.hand hi.calm.limbo)).went (fun _ => enqueueAll_went _ _)).went
      (fun h => drainReady_went hS now _ _ h.calm.doom)).went (fun _ => collect_went hS now _ _)
  · exact .refl hi

theorem immediate_ran (hS : Q.Sound) {s : Quic I Q} (now : Nat) (hi : Idle s) :
    Ran cfg env X T s (s.immediateService cfg env X T now) := by
  have h1 := (hi.went (cfg := cfg) (env := env) (X := X) (T := T) (.one (.book (tick := s.tick + 1) ..))).then
    (fun h => Ran.fold (fun s ch => s.serviceConnection cfg env X T ch now)
      (fun s ch hs => serviceConnection_ran hS ch now (.inl hs.hot) hs.calm) (T.order s.tick s.eventful) { s with tick := s.tick + 1 } h)
  exact (((h1.then (fun h => tryNew_ran hS now h)).went (fun h => serviceFreed_went hS now _ _ _ h.calm)).went
    (fun _ => collect_went hS now _ _)).went (fun _ => reconcile_went _ now)

theorem refresh_went (s : Quic I Q) : Went cfg env X T s s.refresh := .one (.book ..)

theorem between_ran (hS : Q.Sound) {s : Quic I Q} (now : Nat) (a b : Bool) (hi : Idle s) :
    Ran cfg env X T s (s.between cfg env X T now a b) := by
  cases a <;> cases b
  · exact .refl hi
  · exact immediate_ran hS now hi
  · exact catchup_ran hS now hi
  · exact (catchup_ran hS now hi).then (fun h => immediate_ran hS now h)

theorem wake_ran (hS : Q.Sound) {s : Quic I Q} (now : Nat) (hi : Idle s) : Ran cfg env X T s (s.wake cfg env X T now) := by
  unfold wake
  dsimp only
  split
  · exact runTick_ran hS now hi
  · split
    · exact between_ran hS now _ _ hi
    · exact runTick_ran hS now hi

theorem timeout_ran (hS : Q.Sound) {s : Quic I Q} (now : Nat) (hi : Idle s) : Ran cfg env X T s (s.timeout cfg env X T now) :=
  (hi.went (.one (.book (lastNow := some now) (index := ({ s with lastNow := some now } : Quic I Q).refresh.index) ..))).then
    (fun h => wake_ran hS now h)

theorem udp_ran (hS : Q.Sound) {s : Quic I Q} (src : A) (bytes : Bytes) (now : Nat) (hi : Idle s) :
    Ran cfg env X T s (s.udp cfg env X T src bytes now) := by
  have h0 : Ran cfg env X T s { s with lastNow := some now } := hi.went (.one (.book ..))
  unfold udp
  dsimp only
  split
  · have ha := Move.arrive (cfg := cfg) (env := env) (X := X) (T := T) (s := { s with lastNow := some now }) now src bytes hi.hot
    dsimp only at ha
    split
    · next p hx =>
      rw [hx] at ha
      have e : ({ s with lastNow := some now, pool := p, hot := none } : Quic I Q) = { s with lastNow := some now, pool := p } := by
        rw [← hi.hot]
      dsimp only at ha
      rw [e] at ha
      exact h0.then (fun h => ⟨.one ha, ⟨h.calm.doom, h.calm.hand, h.calm.limbo⟩, h.hot⟩)
    · next p ch hx =>
      rw [hx] at ha
      dsimp only at ha
      have h1 : Moves cfg env X T s { s with lastNow := some now, pool := p, stale := residue s.stale ch, hot := some ch } :=
        (h0.moves.snoc ha).snoc (.book (stale := residue s.stale ch) ..)
      have hc : Calm ({ s with lastNow := some now, pool := p, stale := residue s.stale ch, hot := some ch } : Quic I Q) :=
        ⟨hi.calm.doom, hi.calm.hand, hi.calm.limbo⟩
      split
      · have h2 := serviceConnection_ran (cfg := cfg) (env := env) (X := X) (T := T) hS ch now (.inr rfl) hc
        exact ⟨h1.trans h2.moves, h2.idle⟩
      · have h3 := index_went (cfg := cfg) (env := env) (X := X) (T := T) { s with lastNow := some now, pool := p, stale := residue s.stale ch, hot := some ch } ch
        have h2 := serviceConnection_ran (cfg := cfg) (env := env) (X := X) (T := T) hS ch now (.inr (h3.hot.trans rfl)) (h3.calm hc)
        exact ⟨(h1.trans h3.moves).trans h2.moves, h2.idle⟩
  · exact h0.went (fun _ => push_went _ src bytes)
  · exact h0

theorem serviceStarted_ran (hS : Q.Sound) {s : Quic I Q} (d : QDial A) (now : Nat) (hh : s.hand = [d]) (hl : s.limbo = none)
    (hd : s.doom = []) (ho : s.hot = none) : Ran cfg env X T s (s.serviceStarted cfg env X T d now) := by
  have h := processDial_took (cfg := cfg) (env := env) (X := X) (T := T) hS now hh hl
  have r : Ran cfg env X T s (s.processDial cfg env X d now).1 :=
    ⟨h.moves, ⟨h.doom.trans hd, h.hand, h.limbo⟩, h.hot.trans ho⟩
  exact ((((r.went (fun h => pumps_went hS now _ _ h.calm.doom)).went (fun _ => collect_went hS now _ _)).went
    (fun h => serviceFreed_went hS now _ _ _ h.calm)).went (fun _ => collect_went hS now _ _)).went (fun _ => reconcile_went _ now)

theorem launch_fields (s : Quic I Q) (id : Nat) (peer : A) (deadline : Nat) (kind : ExKind) :
    (s.launch id peer deadline kind).hand = [{ id, peer, deadline, wake := deadline, attempted := true, kind }] ∧
    (s.launch id peer deadline kind).limbo = s.limbo ∧ (s.launch id peer deadline kind).doom = s.doom ∧
    (s.launch id peer deadline kind).hot = s.hot := by
  unfold launch noteUp
  split <;> exact ⟨rfl, rfl, rfl, rfl⟩

theorem launched_ran (hS : Q.Sound) {s : Quic I Q} {op : Ep.Op I A} {id : Nat} {peer : A} {deadline : Nat} {kind : ExKind}
    (now : Nat) (hi : Idle s) (hs : Started cfg env s.ep op id peer deadline kind)
    (hk : kind = .userMessage → ConnTable.count s.backlog peer < X.maxUserDials) :
    Ran cfg env X T s ((({ s with lastNow := some now }.callEp cfg env none op).1.launch id peer deadline kind).serviceStarted
      cfg env X T { id, peer, deadline, wake := deadline, attempted := true, kind } now) := by
  have h0 : Moves cfg env X T s { s with lastNow := some now } := .one (.book ..)
  have h1 := h0.snoc (Move.launch (cfg := cfg) (env := env) (X := X) (T := T) op id peer deadline kind hi.calm.hand hi.calm.limbo hs hk)
  obtain ⟨l1, l2, l3, l4⟩ := launch_fields ({ s with lastNow := some now }.callEp cfg env none op).1 id peer deadline kind
  have h2 := serviceStarted_ran (cfg := cfg) (env := env) (X := X) (T := T) hS
    { id, peer, deadline, wake := deadline, attempted := true, kind } now l1 (l2.trans hi.calm.limbo) (l3.trans hi.calm.doom) (l4.trans hi.hot)
  exact ⟨h1.trans h2.moves, h2.idle⟩

theorem startPushPull_ran (hS : Q.Sound) {s : Quic I Q} (peer : A) (kind : PushPullKind) (now : Nat) (hi : Idle s) :
    Ran cfg env X T s (s.startPushPull cfg env X T peer kind now).1 := by
  unfold startPushPull
  dsimp only
  split
  · next i hx => exact launched_ran hS now hi (.pushPull peer kind now i hx) (by intro h; cases h)
  · next hx =>
    have h0 : Ran cfg env X T s { s with lastNow := some now } := hi.went (.one (.book ..))
    exact h0.went (fun _ => .one (.inert peer kind now hx))

theorem startReliablePing_ran (hS : Q.Sound) {s : Quic I Q} (pid : I) (peer : A) (seq deadline now : Nat) (hi : Idle s) :
    Ran cfg env X T s (s.startReliablePing cfg env X T pid peer seq deadline now).1 := by
  unfold startReliablePing
  dsimp only
  split
  · next i hx => exact launched_ran hS now hi (.reliablePing pid peer seq deadline i hx) (by intro h; cases h)
  · next hx =>
    have h0 : Ran cfg env X T s { s with lastNow := some now } := hi.went (.one (.book ..))
    exact h0.went (fun _ => .one (.burn pid peer seq deadline hx))

/-- A user message that is not started leaves the endpoint as it was. -/
theorem user_error {e : Ep I A} {peer : A} {payload : Bytes} {now : Nat} {x : EpErr}
    (h : (e.startUserMessageDirect cfg env peer payload now).2 = .error x) :
    (e.step cfg env (.startUserMessageDirect peer payload now)).1 = e := by
  revert h
  simp only [Ep.step, Ep.startUserMessageDirect]
  repeat' split
  all_goals first
    | (intro _; rfl)
    | (intro h; cases h)

theorem startUserMessage_ran (hS : Q.Sound) {s : Quic I Q} (peer : A) (payload : Bytes) (now : Nat) (hi : Idle s) :
    Ran cfg env X T s (s.startUserMessage cfg env X T peer payload now).1 := by
  unfold startUserMessage
  dsimp only
  split
  · exact .refl hi
  · next hc =>
    split
    · next x hx =>
      have h0 : Ran cfg env X T s { s with lastNow := some now } := hi.went (.one (.book ..))
      exact h0.went (fun _ => .one (.noop none _ (user_error hx) (by intro r; simp) (by intro ev now; simp)))
    · next id i hx => exact launched_ran hS now hi (.userMessage peer payload now id i hx) (fun _ => Nat.lt_of_not_le hc)

theorem purges (l : List (QDial A)) : ∀ (s : Quic I Q), s.hand = l → s.limbo = none →
    Took cfg env X T s (l.foldl (purgeDial cfg env) s) [] := by
  induction l with
  | nil => intro s hh hl; exact ⟨.refl s, rfl, rfl, hh, hl⟩
  | cons d l ih =>
    intro s hh hl
    obtain ⟨e1, e2, e3, e4, e5⟩ := takeEntry_fields s d
    rw [hh, List.tail_cons] at e3
    have h1 := retire_took (cfg := cfg) (env := env) (X := X) (T := T) d e4
    have h2 := ih ((s.takeEntry d).retire cfg env d.id) (h1.hand.trans e3) h1.limbo
    exact ⟨((Moves.one (.takeEntry d l hh hl)).trans h1.moves).trans h2.moves, h2.hot.trans (h1.hot.trans e1),
      h2.doom.trans (h1.doom.trans e2), h2.hand, h2.limbo⟩

theorem purgeDials_ran {s : Quic I Q} (hi : Idle s) : Ran cfg env X T s (s.purgeDials cfg env T) := by
  have h1 := purges (cfg := cfg) (env := env) (X := X) (T := T) s.takeDials.hand s.takeDials rfl hi.calm.limbo
  have r1 : Ran cfg env X T s (s.takeDials.hand.foldl (purgeDial cfg env) s.takeDials) :=
    ⟨(Moves.one (.takeDials hi.calm.hand)).trans h1.moves, ⟨h1.doom.trans hi.calm.doom, h1.hand, h1.limbo⟩, h1.hot.trans hi.hot⟩
  have r2 := r1.then (c := (((s.takeDials.hand.foldl (purgeDial cfg env) s.takeDials).takeParked T).hand.foldl (purgeDial cfg env)
      ((s.takeDials.hand.foldl (purgeDial cfg env) s.takeDials).takeParked T))) (fun h => by
    have h2 := purges (cfg := cfg) (env := env) (X := X) (T := T) _ ((s.takeDials.hand.foldl (purgeDial cfg env) s.takeDials).takeParked T) rfl h.calm.limbo
    exact ⟨(Moves.one (.takeParked h.calm.hand)).trans h2.moves, ⟨h2.doom.trans h.calm.doom, h2.hand, h2.limbo⟩, h2.hot.trans h.hot⟩)
  exact r2.went (fun _ => .one (.book ..))

theorem leave_ran {s : Quic I Q} (now : Nat) (farewell : Option Bytes) (hi : Idle s) :
    Ran cfg env X T s (s.leave cfg env T now farewell) := by
  have h0 : Ran cfg env X T s { s with lastNow := some now } := hi.went (.one (.book ..))
  have h1 := h0.went (fun _ => Went.one (.call none (.leave now farewell) trivial))
  unfold leave
  dsimp only
  split
  · exact h1
  · exact h1.then (fun h => purgeDials_ran h)

theorem setCompression_ran {s : Quic I Q} (cmp : CmpOptions) (hi : Idle s) :
    Ran cfg env X T s (s.setCompression cfg env cmp) :=
  (hi.went (b := { s with cmp := cmp }) (.one (.book ..))).went (fun _ => .one (.call none .setResponseCompression trivial))

theorem pollEventLoop_went : ∀ (fuel : Nat) (s : Quic I Q), Went cfg env X T s (s.pollEventLoop cfg env fuel).1 := by
  intro fuel
  induction fuel with
  | zero => intro s; exact .refl s
  | succ k ih =>
    intro s
    simp only [pollEventLoop]
    split
    · next h => exact .one (.pollOther (by rw [h]; intro _ _ _ h; cases h))
    · next id peer deadline h =>
      obtain ⟨q1, q2, q3, q4⟩ := queueDial_fields (s.callEp cfg env none .pollEvent).1
        (fromRequest (s.callEp cfg env none .pollEvent).1.ep (id, peer, deadline))
      have h1 : Went cfg env X T s (((s.callEp cfg env none .pollEvent).1.queueDial
        (fromRequest (s.callEp cfg env none .pollEvent).1.ep (id, peer, deadline))).setTimer (.dial id) (some deadline)) :=
        ⟨.one (.pollDial id peer deadline h), q1, q2, q3, q4⟩
      exact h1.trans (ih _)
    · next ev hn h => exact .one (.pollOther (by rw [h]; intro a b c hx; cases hx; exact hn _ _ _ rfl))

theorem queueDatagram_ran (hS : Q.Sound) {s : Quic I Q} (peer : A) (bytes : Bytes) (now : Nat) (hi : Idle s) :
    Ran cfg env X T s (s.queueDatagram X peer bytes now).1 := by
  have hd : Went cfg env X T s { s with pool := (s.pool.dial Q X.caps now peer).1 } := .one (.dial now peer)
  unfold queueDatagram
  split
  · next p _ hx => rw [hx] at hd; exact hi.went hd
  · next p ch hx =>
    rw [hx] at hd
    have hd2 : Went cfg env X T s { s with pool := p, stale := residue s.stale ch } := hd.snoc (.book ..)
    dsimp only
    have hv := put_went (cfg := cfg) (env := env) (X := X) (T := T) (s := { s with pool := p, stale := residue s.stale ch }) ch ch
      (via_step (D := s.hot = some ch) p.table ch (tryDatagram Q bytes) (.inr (by
            intro c
            unfold tryDatagram
            split
            · rfl
            · split
              · rfl
              · exact hS.sendDgram c bytes)))
    split
    · exact hi.went (hd2.trans (collectConn_went hS now _ ch))
    · next t st ht =>
      dsimp only [table] at ht
      rw [ht] at hv
      exact hi.went ((hd2.trans hv).trans (collectConn_went hS now _ ch))

theorem openUni_ran (hS : Q.Sound) {s : Quic I Q} (peer : A) (now : Nat) (hi : Idle s) :
    Ran cfg env X T s (s.openUni peer now).1 := by
  have h0 : Ran cfg env X T s { s with lastNow := some now } := hi.went (.one (.book ..))
  unfold openUni
  dsimp only
  split
  · exact h0
  · next ch _ =>
    have hv := put_went (cfg := cfg) (env := env) (X := X) (T := T) (s := { s with lastNow := some now }) ch ch
      (via_step (D := s.hot = some ch) s.pool.table ch (fun c =>
        (if (Q.openUni c).2 then Q.close (Q.openUni c).1 now else (Q.openUni c).1, (Q.openUni c).2)) (.inr (by
            intro c
            dsimp only
            split
            · exact (hS.close _ now).trans (hS.openUni c)
            · exact hS.openUni c)))
    split
    · exact h0
    · next t st ht =>
      dsimp only [table] at ht
      rw [ht] at hv
      exact h0.went (fun _ => hv.trans (index_went _ ch))

theorem plain_direct (d : Coord.Direct I A) : Plain d.op.1 := by cases d <;> trivial

/-- Calls that leave the queue of received datagrams to the node. -/
def Tame : QOp I A → Prop
  | .pollIngress | .setEncryption _ => False
  | _ => True

theorem step_ran (hS : Q.Sound) {s : Quic I Q} (op : QOp I A) (ht : Tame op) (hi : Idle s) :
    Ran cfg env X T s (s.step cfg env X T op).1 := by
  cases op with
  | udp src bytes now => exact udp_ran hS src bytes now hi
  | timeout now => exact timeout_ran hS now hi
  | flush now => exact flush_ran hS now hi
  | startPushPull peer kind now => exact startPushPull_ran hS peer kind now hi
  | startReliablePing pid peer seq d now => exact startReliablePing_ran hS pid peer seq d now hi
  | startUserMessage peer payload now => exact startUserMessage_ran hS peer payload now hi
  | leave now f => exact leave_ran now f hi
  | setEncryption r => exact ht.elim
  | setCompression c => exact setCompression_ran c hi
  | queueDatagram peer bytes now => exact queueDatagram_ran hS peer bytes now hi
  | openUni peer now => exact openUni_ran hS peer now hi
  | pollTransmit =>
    simp only [step, pollTransmit]
    split
    · exact .refl hi
    · exact hi.went (.one (.book ..))
  | pollIngress =>
    exact ht.elim
  | pollEvent => exact hi.went (pollEventLoop_went _ s)
  | pollTimeout => exact hi.went (refresh_went s)
  | direct d =>
    simp only [step]
    exact (hi.went (.one (.book (lastNow := match directTime d with
                                 | some now => some now
                                 | none => s.lastNow) ..))).went (fun _ => .one (.call none _ (plain_direct d)))

theorem new_idle (ep : Ep I A) (q : Q.E) (cmp : CmpOptions) : Idle (new ep q cmp : Quic I Q) := ⟨⟨rfl, rfl, rfl⟩, rfl⟩

/-- An invariant of the moves, of taking a received datagram and of forgetting them all holds throughout. -/
theorem run_inv {P : Quic I Q → Prop} (hS : Q.Sound) (hmove : ∀ a b, P a → Move cfg env X T a b → P b)
    (hpull : ∀ a, P a → P a.pollIngress.1)
    (hwipe : ∀ a ring, P a → P { a with ring := ring, ingress := [], perPeer := [] }) (ops : List (QOp I A)) :
    ∀ {s : Quic I Q}, Idle s → P s → P (s.run cfg env X T ops) ∧ Idle (s.run cfg env X T ops) := by
  induction ops with
  | nil => intro s hi h; exact ⟨h, hi⟩
  | cons op ops ih =>
    intro s hi h
    have key : P (s.step cfg env X T op).1 ∧ Idle (s.step cfg env X T op).1 := by
      by_cases ht : Tame op
      · have := step_ran (cfg := cfg) (env := env) (X := X) (T := T) hS op ht hi
        exact ⟨this.moves.inv hmove h, this.idle⟩
      · cases op with
        | pollIngress =>
          refine ⟨hpull s h, ?_⟩
          show Idle s.pollIngress.1
          unfold pollIngress
          split <;> exact ⟨⟨hi.calm.doom, hi.calm.hand, hi.calm.limbo⟩, hi.hot⟩
        | setEncryption ring =>
          show P (s.setEncryption ring) ∧ Idle (s.setEncryption ring)
          unfold setEncryption
          split
          · exact ⟨h, hi⟩
          · exact ⟨hwipe s ring h, ⟨hi.calm.doom, hi.calm.hand, hi.calm.limbo⟩, hi.hot⟩
        | _ => exact absurd trivial ht
    exact ih key.2 key.1

end Verif.Quic
