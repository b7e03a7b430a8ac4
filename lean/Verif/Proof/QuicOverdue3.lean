import Verif.Proof.QuicOverdue2
/-
Exchanges that ran out: a tick and a flush leave none.
-/
namespace Verif.Quic
open Verif Map QBridge
variable {I A : Type} [DecidableEq I] [DecidableEq A] {Q : Quinn A}
variable {cfg : Cfg I A} {env : Env I A} {X : QCfg} {T : TEnv}

/-- A claim about every exchange but those in `L`. -/
def Most (L : List Nat) (P : QBridge I A → Prop) (s : Quic I Q) : Prop := ∀ x b, s.bridges.get? x = some b → x ∈ L ∨ P b

variable {now : Nat} {P : QBridge I A → Prop} {L : List Nat}

theorem Most.same {s s' : Quic I Q} (h : Most L P s) (hb : s'.bridges = s.bridges) : Most L P s' := by
  unfold Most; rw [hb]; exact h

theorem Most.insert {s s' : Quic I Q} (h : Most L P s) {id : Nat} {b : QBridge I A} (hb : s'.bridges = s.bridges.insert id b)
    (ha : P b) : Most L P s' := by
  intro x b' hx
  rw [hb, get?_insert] at hx
  split at hx
  · cases hx; exact .inr ha
  · exact h x b' hx

/-- Every exchange is one there was, or one in `L`. -/
theorem Most.from {s s' : Quic I Q} (hP : Lasting now P) (h : Most L P s)
    (hb : ∀ x b', s'.bridges.get? x = some b' → ∃ b, s.bridges.get? x = some b ∧ Timed b b') : Most L P s' := by
  intro x b' hx
  obtain ⟨b, h1, h2⟩ := hb x b' hx
  exact (h x b h1).imp (fun h => h) (hP.mono h2)

/-! ### One exchange -/

/-- What moving the bytes of an exchange leaves: the other exchanges, and perhaps that exchange. -/
theorem pumpOne_get {s : Quic I Q} {id x : Nat} {b' : QBridge I A} (h : (s.pumpOne cfg env T now id).1.bridges.get? x = some b') :
    (x ≠ id ∧ ∃ b, s.bridges.get? x = some b ∧ Timed b b') ∨
    x = id ∧ b'.isTerminal = false ∧ ∃ b cmp e t, s.bridges.get? id = some b ∧
      b' = (drainPayloadOnly cfg env T Q cmp e t
        ((({ b with queued := false } : QBridge I A).pumpIn env.CI env.CA T Q s.table now).1.pumpOut Q T
          (({ b with queued := false } : QBridge I A).pumpIn env.CI env.CA T Q s.table now).2 now).1 now).2.1 := by
  unfold Quic.pumpOne at h
  split at h
  · next hn =>
    by_cases hx : x = id
    · subst hx; rw [show s.bridges.get? x = some b' from h] at hn; cases hn
    · exact .inl ⟨hx, b', h, .refl _⟩
  · next b hb =>
    dsimp only at h
    have ht : (s.begin id b).table = s.table := rfl
    rw [ht] at h
    generalize hw : (({ b with queued := false } : QBridge I A).pumpIn env.CI env.CA T Q s.table now).1.pumpOut Q T
      (({ b with queued := false } : QBridge I A).pumpIn env.CI env.CA T Q s.table now).2 now = w at h
    have old : ∀ (s1 : Quic I Q) (m : QBridge I A), s1.bridges = (s.begin id b).bridges.insert id m →
        ∀ y c, y ≠ id → s1.bridges.get? y = some c → s.bridges.get? y = some c := by
      intro s1 m h1 y c hy hc
      rw [h1] at hc
      change ((s.bridges.insert id _).insert id m).get? y = some c at hc
      rwa [get?_insert, if_neg (Ne.symm hy), get?_insert, if_neg (Ne.symm hy)] at hc
    unfold Quic.afterPump at h
    dsimp only at h
    split at h
    · obtain ⟨hne, b0, h1, h2⟩ := drainReap_get h
      exact .inl ⟨hne, b0, old _ _ rfl x b0 hne h1, h2⟩
    · unfold Quic.afterDrain at h
      dsimp only at h
      split at h
      · obtain ⟨hne, b0, h1, h2⟩ := drainReap_get h
        refine .inl ⟨hne, b0, ?_, h2⟩
        change (((s.begin id b).putWork id w).bridges.insert id _).get? x = some b0 at h1
        rw [get?_insert, if_neg (Ne.symm hne)] at h1
        exact old _ _ rfl x b0 hne h1
      · next hn =>
        change (((s.begin id b).putWork id w).bridges.insert id _).get? x = some b' at h
        rw [get?_insert] at h
        split at h
        · next hx =>
          cases h
          refine .inr ⟨hx.symm, Bool.eq_false_iff.2 hn, b, ((s.begin id b).putWork id w).cmp, ((s.begin id b).putWork id w).ep,
            ((s.begin id b).putWork id w).table, hb, ?_⟩
          rw [hw]
        · next hne => exact .inl ⟨Ne.symm hne, b', old _ _ rfl x b' (Ne.symm hne) h, .refl _⟩

theorem pumpOne_most (hS : Q.Sound) (hP : Lasting now P) {s : Quic I Q} (id : Nat) (h : Most L P s) :
    Most L P (s.pumpOne cfg env T now id).1 := by
  intro x b' hx
  rcases pumpOne_get hx with ⟨_, b, h1, h2⟩ | ⟨rfl, _, b, cmp, e, t, h1, rfl⟩
  · exact (h x b h1).imp (fun h => h) (hP.mono h2)
  · refine (h x b h1).imp (fun h => h) (fun hp => ?_)
    apply drainPayloadOnly_lasting hS hP
    have h0 : Timed b { b with queued := false } := ⟨rfl, .refl _, fun h => h⟩
    exact hP.mono ((h0.trans (pumpIn_timed hS _ _ now)).trans (pumpOut_timed hS _ _ now)) hp

/-- An exchange whose bytes were moved is not behind time. -/
theorem pumpOne_near (hS : Q.Sound) {s : Quic I Q} (hs : Sane cfg env X s) (id : Nat) (h : Most (id :: L) (Near now) s) :
    Most L (Near now) (s.pumpOne cfg env T now id).1 := by
  intro x b' hx
  rcases pumpOne_get hx with ⟨hne, b, h1, h2⟩ | ⟨rfl, _, b, cmp, e, t, h1, rfl⟩
  · rcases h x b h1 with h | h
    · rcases List.mem_cons.1 h with h | h
      · exact absurd h hne
      · exact .inl h
    · exact .inr ((near_lasting now).mono h2 h)
  · right
    apply drainPayloadOnly_lasting hS (near_lasting now)
    have ht := pumpIn_timed (CI := env.CI) (CA := env.CA) (T := T) hS { b with queued := false } s.table now
    have hk := pumpIn_steady (CI := env.CI) (CA := env.CA) (T := T) { b with queued := false } s.table now
    refine pumpOut_near hS _ _ now (Aligned.timed (b := { b with queued := false }) (hs.align x b h1) ht) ?_
    obtain ⟨e, he, _⟩ := hs.node.place.conn x b h1
    rw [hk.1.2.1]
    cases hc : ((({ b with queued := false } : QBridge I A).pumpIn env.CI env.CA T Q s.table now).2).conns.get? b.ch with
    | some e' => exact ⟨e', rfl⟩
    | none =>
      have := hk.2.2.1 hc
      rw [show s.table.conns.get? b.ch = some e from he] at this
      cases this

/-- Once the deadline of an exchange that was not behind time is over, so is the exchange. -/
theorem pumpOne_ahead (hS : Q.Sound) {s : Quic I Q} (id : Nat) (hn : Most [] (Near now) s) (h : Most (id :: L) (Ahead now) s) :
    Most L (Ahead now) (s.pumpOne cfg env T now id).1 := by
  intro x b' hx
  rcases pumpOne_get hx with ⟨hne, b, h1, h2⟩ | ⟨rfl, hterm, b, cmp, e, t, h1, rfl⟩
  · rcases h x b h1 with h | h
    · rcases List.mem_cons.1 h with h | h
      · exact absurd h hne
      · exact .inl h
    · exact .inr ((ahead_lasting now).mono h2 h)
  · right
    have hb : Near now b := (hn x b h1).resolve_left (by simp)
    have h0 : Timed b { b with queued := false } := ⟨rfl, .refl _, fun h => h⟩
    have ht := h0.trans (pumpIn_timed (CI := env.CI) (CA := env.CA) (T := T) hS { b with queued := false } s.table now)
    generalize ({ b with queued := false } : QBridge I A).pumpIn env.CI env.CA T Q s.table now = i at *
    have ha : (fun b : QBridge I A => b.isTerminal = true ∨ now < b.deadline) (i.1.pumpOut Q T i.2 now).1 := by
      have hi := (near_lasting now).mono ht hb
      have ho := pumpOut_timed (T := T) hS i.1 i.2 now
      rcases hi with hi | hi | hi
      · exact .inl (ho.terminal hi)
      · left
        unfold pumpOut
        rw [if_pos (by rw [hi, Bool.or_true])]
        exact drop_terminal _ _
      · exact .inr (by rw [ho.deadline]; exact hi)
    have := drainPayloadOnly_lasting (cfg := cfg) (env := env) (T := T) hS (apace_lasting now) cmp e t _ ha
    rcases this with h | h
    · rw [hterm] at h; cases h
    · exact h

/-! ### Every exchange -/

theorem pumpFold_near (hS : Q.Sound) : ∀ (l : List Nat) {s : Quic I Q}, Sane cfg env X s → s.doom = [] → Most l (Near now) s →
    Most [] (Near now) (l.foldl (fun s id => (s.pumpOne cfg env T now id).1) s) := by
  intro l
  induction l with
  | nil => intro s _ _ h; exact h
  | cons x l ih =>
    intro s hs hd h
    rw [List.foldl_cons]
    have hw := pumpOne_went (cfg := cfg) (env := env) (X := X) (T := T) hS now s x hd
    exact ih (hs.moves hS hw.moves) (hw.doom.trans hd) (pumpOne_near hS hs x h)

theorem pumpFold_ahead (hS : Q.Sound) : ∀ (l : List Nat) {s : Quic I Q}, Most [] (Near now) s → Most l (Ahead now) s →
    Most [] (Ahead now) (l.foldl (fun s id => (s.pumpOne cfg env T now id).1) s) := by
  intro l
  induction l with
  | nil => intro s _ h; exact h
  | cons x l ih =>
    intro s hs h
    rw [List.foldl_cons]
    exact ih (pumpOne_most hS (near_lasting now) x hs) (pumpOne_ahead hS x hs h)

theorem most_keys (k : Nat) (s : Quic I Q) : Most (T.order k s.bridges.keys) P s :=
  fun _ b hx => .inl ((T.order_perm _ _).mem_iff.2 (mem_keys.2 ⟨b, mem_of_get? hx⟩))

theorem pumpAll_near (hS : Q.Sound) {s : Quic I Q} (hs : Sane cfg env X s) (hd : s.doom = []) :
    Most [] (Near now) (s.pumpAll cfg env T now) := by
  unfold Quic.pumpAll
  refine pumpFold_near hS _ (s := { s with tick := s.tick + 1 }) (X := X) ?_ hd (most_keys (s := s) _)
  exact hs.moves (T := T) hS (.one (.book (s := s) ..))

theorem pumpAll_ahead (hS : Q.Sound) {s : Quic I Q} (h : Most [] (Near now) s) :
    Most [] (Ahead now) (s.pumpAll cfg env T now) := by
  unfold Quic.pumpAll
  exact pumpFold_ahead hS _ (s := { s with tick := s.tick + 1 }) h (most_keys (s := s) _)

/-! ### Between -/

theorem enqueue_most (hP : Lasting now P) {s : Quic I Q} (id : Nat) (h : Most L P s) : Most L P (s.enqueue id) := by
  unfold Quic.enqueue
  split
  · exact h
  · next b hb =>
    split
    · exact h
    · refine h.from hP (fun x b' hx => ?_)
      change (s.bridges.insert id _).get? x = some b' at hx
      rw [get?_insert] at hx
      split at hx
      · next he => subst he; cases hx; exact ⟨b, hb, rfl, .refl _, fun h => h⟩
      · exact ⟨b', hx, .refl _⟩

theorem enqueueAll_most (hP : Lasting now P) : ∀ (l : List Nat) {s : Quic I Q}, Most L P s → Most L P (s.enqueueAll l) := by
  intro l
  induction l with
  | nil => intro s h; exact h
  | cons x l ih => intro s h; exact ih (enqueue_most hP x h)

omit [DecidableEq I] [DecidableEq A] in
theorem new_deadline {st : Stream I A} {d : Nat} (hp : st.pollTimeout = some d) (ch sid : Nat)
    (cmp : CmpOptions) (max : Nat) (label : Option Bytes) (skip eager : Bool) (k : Nat) :
    ({ QBridge.new st ch sid cmp max label skip eager with slot := k } : QBridge I A).deadline = d := by
  unfold QBridge.new
  dsimp only
  rw [hp]

theorem openDial_most (hP : Lasting now P) {s : Quic I Q} (d : QDial A) (ch : Nat) (h : Most L P s) :
    Most L P (s.openDial cfg env X d ch now).1 := by
  have hr : ∀ (s' : Quic I Q), s'.bridges = s.bridges → (s'.repark X d now).bridges = s.bridges := by
    intro s' hs; obtain ⟨w, hw⟩ := repark_eq (X := X) s' d now; rw [hw]; exact hs
  unfold Quic.openDial
  split
  · exact h.same rfl
  · split
    · exact h.same (hr s rfl)
    · split
      · next t sid hx =>
        have hc : ∀ r, (s.putTable ch t).callEp cfg env (some d.id) (.dialSucceeded d.id now) = r → r.1.bridges = s.bridges := by
          rintro r rfl; rfl
        split
        · next s2 st hx2 =>
          have hst : (s.ep.step cfg env (.dialSucceeded d.id now)).2 = .stream (some st) := congrArg Prod.snd hx2
          obtain ⟨dd, _, h2, h3⟩ := dialled_fresh hst
          have e2 : s2.bridges = s.bridges := hc _ hx2
          refine (h.same e2).insert (id := st.id) rfl (hP.fresh ?_)
          rw [new_deadline h2]
          exact h3
        · next s2 o _ hx2 =>
          refine h.same ?_
          unfold Quic.useConn
          rw [retire_eq]
          exact hc _ hx2
      · next t o _ hx =>
        have fin : ∀ (cl : Bool) (r : Quic I Q × Attempted),
            r = (if cl = true then ((s.putTable ch t).retire cfg env d.id, { res := .retired, touched := [ch] })
            else if now < d.deadline then ((s.putTable ch t).repark X d now, { res := .reparked, touched := [ch] })
            else ((s.putTable ch t).retire cfg env d.id, { res := .retired, touched := [ch] })) → r.1.bridges = s.bridges := by
          intro cl r hr'
          split at hr'
          · subst hr'; rw [retire_eq]; rfl
          · split at hr'
            · subst hr'; exact hr _ rfl
            · subst hr'; rw [retire_eq]; rfl
        exact h.same (fin _ _ rfl)

theorem processDial_most (hP : Lasting now P) {s : Quic I Q} (d : QDial A) (h : Most L P s) :
    Most L P (s.processDial cfg env X d now).1 := by
  have ht : (s.takeEntry d).bridges = s.bridges := by rw [takeEntry_eq]
  unfold Quic.processDial
  dsimp only
  generalize s.takeEntry d = s0 at ht
  split
  · rw [retire_eq]; exact h.same ht
  · split
    · rw [retire_eq]; exact h.same ht
    · exact openDial_most hP d _ (h.same ht)

theorem processAll_most (hP : Lasting now P) : ∀ (l : List (QDial A)) {s : Quic I Q}, Most L P s →
    Most L P (s.processAll cfg env X now l).1 := by
  intro l
  induction l with
  | nil => intro s h; exact h
  | cons d l ih => intro s h; exact ih (processDial_most hP d h)

theorem serviceDials_most (hP : Lasting now P) {s : Quic I Q} (h : Most L P s) : Most L P (s.serviceDials cfg env X T now).1 := by
  unfold Quic.serviceDials
  dsimp only
  have h1 : Most L P ((s.sieve cfg env).takeDials) := by
    refine h.same ?_; unfold takeDials; rw [sieve_eq]
  exact processAll_most hP _ ((processAll_most hP _ h1).same rfl)

theorem bucketLoop_most (hP : Lasting now P) (peer : A) : ∀ (fuel : Nat) {s : Quic I Q} (pops : Nat) (b : BucketEnd), Most L P s →
    Most L P (s.bucketLoop cfg env X peer now fuel pops b).1 := by
  intro fuel
  induction fuel with
  | zero => intro s pops b h; exact h
  | succ k ih =>
    intro s pops b h
    unfold Quic.bucketLoop
    split
    · next d rest hp =>
      have h1 : Most L P ((s.popParked peer d rest).processDial cfg env X d now).1 :=
        processDial_most hP d (h.same rfl)
      generalize (s.popParked peer d rest).processDial cfg env X d now = r at h1
      split
      · split
        · exact h
        · dsimp only
          split
          · exact h1
          · exact ih _ _ h1
      · dsimp only
        split
        · exact h1
        · exact ih _ _ h1
    · exact h

theorem bucketDone_bridges (s : Quic I Q) (peer : A) (b : BucketEnd) : (s.bucketDone X peer now b).bridges = s.bridges := by
  unfold Quic.bucketDone
  split
  · rfl
  · rfl
  · split <;> rfl

theorem servicePeer_most (hP : Lasting now P) {s : Quic I Q} (peer : A) (budget : Option Nat) (h : Most L P s) :
    Most L P (s.servicePeer cfg env X peer now budget).1 := by
  unfold Quic.servicePeer
  dsimp only
  have h1 := bucketLoop_most (cfg := cfg) (env := env) (X := X) hP peer (match s.parked.get? peer with | some l => l.length | none => 0) 0
    { budget := budget, any := false, last := false } h
  exact h1.same (bucketDone_bridges ..)

theorem readyLoop_most (hS : Q.Sound) (hP : Lasting now P) : ∀ (n : Nat) {s : Quic I Q} (conns : List Nat), Most L P s →
    Most L P (s.readyLoop cfg env T now n conns).1 := by
  intro n
  induction n with
  | zero => intro s conns h; exact h
  | succ n ih =>
    intro s conns h
    unfold Quic.readyLoop
    split
    · exact h
    · exact ih _ (pumpOne_most hS hP _ (h.same rfl))

theorem freedPeer_most (hS : Q.Sound) (hP : Lasting now P) {r : Quic I Q × Pass} (peer : A) (h : Most L P r.1) :
    Most L P (freedPeer cfg env X T now r peer).1 := by
  unfold Quic.freedPeer
  dsimp only
  unfold Quic.drainReady
  dsimp only
  exact readyLoop_most hS hP _ _ (enqueueAll_most hP _ (servicePeer_most hP peer _ h))

theorem freedFold_most (hS : Q.Sound) (hP : Lasting now P) : ∀ (l : List A) {r : Quic I Q × Pass}, Most L P r.1 →
    Most L P (l.foldl (freedPeer cfg env X T now) r).1 := by
  intro l
  induction l with
  | nil => intro r h; exact h
  | cons x l ih => intro r h; exact ih (freedPeer_most hS hP x h)

theorem freedLoop_most (hS : Q.Sound) (hP : Lasting now P) : ∀ (n : Nat) {r : Quic I Q × Pass}, Most L P r.1 →
    Most L P (freedLoop cfg env X T now n r).1 := by
  intro n
  induction n with
  | zero =>
    intro r h
    unfold Quic.freedLoop
    split
    · exact h
    · exact h.same rfl
  | succ n ih =>
    intro r h
    unfold Quic.freedLoop
    split
    · exact h
    · exact ih (freedFold_most hS hP _ (r := ({ r.1 with freed := [] }, r.2)) (h.same rfl))

theorem serviceFreed_most (hS : Q.Sound) (hP : Lasting now P) {s : Quic I Q} (pumps dials : Option Nat) (h : Most L P s) :
    Most L P (s.serviceFreed cfg env X T now pumps dials).1 := freedLoop_most hS hP _ h

/-! ### Connections -/

theorem notice_most (hP : Lasting now P) {s : Quic I Q} (ch sid : Nat) (f : QBridge I A → QBridge I A) (hf : ∀ b, Timed b (f b))
    (h : Most L P s) : Most L P (s.notice ch sid f) := by
  unfold Quic.notice
  split
  · exact h
  · next id _ =>
    split
    · exact h
    · next b hb =>
      apply enqueue_most hP
      refine h.from hP (fun x b' hx => ?_)
      change (s.bridges.insert id _).get? x = some b' at hx
      rw [get?_insert] at hx
      split at hx
      · next he => subst he; cases hx; exact ⟨b, hb, hf b⟩
      · exact ⟨b', hx, .refl _⟩

theorem acceptOne_most (hP : Lasting now P) (hc : 0 < cfg.streamTimeout) {s : Quic I Q} (ch sid : Nat) (peer : A) (h : Most L P s) :
    Most L P (s.acceptOne cfg env X ch sid peer now) := by
  unfold Quic.acceptOne
  split
  · exact h.same rfl
  · have hcl : ∀ r, s.callEp cfg env none (.acceptStream peer now) = r → r.1.bridges = s.bridges := by
      rintro r rfl; rfl
    split
    · next s2 st hx =>
      have hst : (s.ep.step cfg env (.acceptStream peer now)).2 = .stream (some st) := congrArg Prod.snd hx
      obtain ⟨_, h2⟩ := accepted_fresh hst
      have e2 : s2.bridges = s.bridges := hcl _ hx
      apply enqueue_most hP
      refine (h.same e2).insert (id := st.id) rfl (hP.fresh ?_)
      rw [new_deadline h2]
      omega
    · next s2 _ _ hx => exact h.same (hcl _ hx)

theorem acceptLoop_most (hP : Lasting now P) (hc : 0 < cfg.streamTimeout) (ch : Nat) : ∀ (fuel : Nat) {s : Quic I Q}, Most L P s →
    Most L P (s.acceptLoop cfg env X ch now fuel) := by
  intro fuel
  induction fuel with
  | zero => intro s h; exact h
  | succ k ih =>
    intro s h
    unfold Quic.acceptLoop
    split
    · exact h
    · exact h.same rfl
    · exact ih (acceptOne_most hP hc _ _ _ (h.same rfl))

theorem onEvent_most (hP : Lasting now P) (hc : 0 < cfg.streamTimeout) {s : Quic I Q} (ch : Nat) (ev : ConnEv) (h : Most L P s) :
    Most L P (s.onEvent cfg env X ch now ev) := by
  cases ev with
  | opened => exact acceptLoop_most hP hc ch _ h
  | readable sid => exact notice_most hP ch sid _ (fun b => .refl b) h
  | writable sid => exact notice_most hP ch sid _ (fun b => .refl b) h
  | finished sid => exact notice_most hP ch sid _ (fun b => sendFin_timed b) h
  | stopped sid => exact notice_most hP ch sid _ (fun b => drop_timed b _) (h.same rfl)
  | lost => exact h
  | available => exact h
  | other => exact h

theorem pollLoop_most (hP : Lasting now P) (hc : 0 < cfg.streamTimeout) (ch : Nat) : ∀ (fuel : Nat) {s : Quic I Q} (lost credit : Bool),
    Most L P s → Most L P (s.pollLoop cfg env X ch now fuel lost credit).1 := by
  intro fuel
  induction fuel with
  | zero => intro s lost credit h; exact h
  | succ k ih =>
    intro s lost credit h
    unfold Quic.pollLoop
    split
    · exact h
    · exact h.same rfl
    · exact ih _ _ (onEvent_most hP hc ch _ (h.same rfl))

theorem endpointLoop_bridges (ch : Nat) : ∀ (fuel : Nat) (s : Quic I Q), (s.endpointLoop ch fuel).bridges = s.bridges := by
  intro fuel
  induction fuel with
  | zero => intro s; rfl
  | succ k ih =>
    intro s
    unfold Quic.endpointLoop
    split
    · rfl
    · rfl
    · rw [ih]; rfl
    · dsimp only
      rw [ih]; rfl

theorem pushIngress_bridges (s : Quic I Q) (src : A) (bytes : Bytes) : (s.pushIngress src bytes).bridges = s.bridges := by
  unfold pushIngress; split <;> rfl

theorem datagramLoop_bridges (ch : Nat) : ∀ (fuel : Nat) (s : Quic I Q), (s.datagramLoop ch fuel).bridges = s.bridges := by
  intro fuel
  induction fuel with
  | zero => intro s; rfl
  | succ k ih =>
    intro s
    unfold Quic.datagramLoop
    split
    · rfl
    · rfl
    · rw [ih, pushIngress_bridges]; rfl

theorem reapLost_most (hP : Lasting now P) {s : Quic I Q} (ch id : Nat) (h : Most L P s) : Most L P (reapLost cfg env T ch now s id) := by
  unfold Quic.reapLost
  split
  · exact h.same rfl
  · next b hb =>
    dsimp only
    refine h.from hP (fun x b' hx => ?_)
    obtain ⟨hne, b0, h1, h2⟩ := drainReap_get hx
    change (s.bridges.insert id _).get? x = some b0 at h1
    rw [get?_insert, if_neg (Ne.symm hne)] at h1
    exact ⟨b0, h1, h2⟩

theorem reapFold_most (hP : Lasting now P) (ch : Nat) : ∀ (l : List Nat) {s : Quic I Q}, Most L P s →
    Most L P (l.foldl (reapLost cfg env T ch now) s) := by
  intro l
  induction l with
  | nil => intro s h; exact h
  | cons x l ih => intro s h; exact ih (reapLost_most hP ch x h)

theorem serviceOne_most (hP : Lasting now P) (hc : 0 < cfg.streamTimeout) {s : Quic I Q} (ch : Nat) (h : Most L P s) :
    Most L P (s.serviceOne cfg env X T ch now).1 := by
  unfold Quic.serviceOne
  split
  · exact h.same rfl
  · dsimp only
    have h1 : Most L P (({ s with hot := some ch }.feed ch now).pollLoop cfg env X ch now Q.fuel false false).1 :=
      pollLoop_most hP hc ch _ _ _ (h.same rfl)
    generalize ({ s with hot := some ch }.feed ch now).pollLoop cfg env X ch now Q.fuel false false = r at h1
    have h2 : Most L P ((r.1.endpointLoop ch Q.fuel).datagramLoop ch Q.fuel) :=
      h1.same ((datagramLoop_bridges _ _ _).trans (endpointLoop_bridges _ _ _))
    generalize (r.1.endpointLoop ch Q.fuel).datagramLoop ch Q.fuel = s2 at h2
    unfold Quic.settleConn
    split
    · exact h2.same rfl
    · dsimp only
      split
      · have h3 : Most L P (List.foldl (reapLost cfg env T ch now) (s2.takeBucket ch) (s2.takeBucket ch).doom) :=
          reapFold_most hP ch _ (h2.same rfl)
        exact h3.same rfl
      · exact h2.same rfl

theorem serviceQuinn_most (hP : Lasting now P) (hc : 0 < cfg.streamTimeout) {s : Quic I Q} (h : Most L P s) :
    Most L P (s.serviceQuinn cfg env X T now).1 := by
  unfold Quic.serviceQuinn
  have key : ∀ (l : List Nat) (r : Quic I Q × List A), Most L P r.1 → Most L P (l.foldl (fun r ch =>
      let m := r.1.serviceOne cfg env X T ch now
      (m.1, (m.2.credit.toList ++ (m.1.establishedPeer ch m.2).toList).foldl residue r.2)) r).1 := by
    intro l
    induction l with
    | nil => intro r h; exact h
    | cons x l ih => intro r h; exact ih _ (serviceOne_most hP hc x h)
  exact key _ _ (h.same rfl)

theorem peersFold_most (hP : Lasting now P) : ∀ (l : List A) {s : Quic I Q}, Most L P s →
    Most L P (l.foldl (fun s p => (s.servicePeer cfg env X p now none).1) s) := by
  intro l
  induction l with
  | nil => intro s h; exact h
  | cons x l ih => intro s h; exact ih (servicePeer_most hP x none h)

theorem finalize_most {s : Quic I Q} (h : Most L P s) : Most L P (s.finalize T now) := h.same (finalize_bridges ..)

/-- A tick leaves no exchange whose deadline is over. -/
theorem runTick_ahead (hS : Q.Sound) (hc : 0 < cfg.streamTimeout) {s : Quic I Q} (hs : Sane cfg env X s) (hd : s.doom = []) :
    Most [] (Ahead now) (s.runTick cfg env X T now) := by
  unfold Quic.runTick
  dsimp only
  have h1 := pumpAll_near (T := T) (now := now) hS hs hd
  have h2 : Most [] (Near now) ((s.pumpAll cfg env T now).callEp cfg env none (.timeout now)).1 := h1.same rfl
  have h3 := serviceDials_most (cfg := cfg) (env := env) (X := X) (T := T) (near_lasting now)
    (serviceQuinn_most (env := env) (X := X) (T := T) (near_lasting now) hc h2)
  refine finalize_most (serviceFreed_most hS (ahead_lasting now) none none (pumpAll_ahead hS ?_))
  exact h3.same rfl

/-- So does a flush. -/
theorem flush_ahead (hS : Q.Sound) (hc : 0 < cfg.streamTimeout) {s : Quic I Q} (hs : Sane cfg env X s) (hd : s.doom = []) :
    Most [] (Ahead now) (s.flush cfg env X T now) := by
  unfold Quic.flush
  dsimp only
  have h1 := pumpAll_near (T := T) (now := now) hS hs hd
  have h3 := serviceQuinn_most (env := env) (X := X) (T := T) (near_lasting now) hc h1
  refine finalize_most (serviceFreed_most hS (ahead_lasting now) none none (pumpAll_ahead hS ?_))
  have h4 := peersFold_most (cfg := cfg) (env := env) (X := X) (near_lasting now)
    ((s.pumpAll cfg env T now).serviceQuinn cfg env X T now).2 h3
  exact peersFold_most (near_lasting now) _ (h4.same rfl)

end Verif.Quic
