import Verif.Proof.QuicClock3
/-
The timers of the QUIC node through the service of connections and the calls of the interface.
-/
namespace Verif.Quic
open Verif Map QBridge
variable {I A : Type} [DecidableEq I] [DecidableEq A] {Q : Quinn A}
variable {cfg : Cfg I A} {env : Env I A} {X : QCfg} {T : TEnv}
variable {L S P : Nat → Prop}

theorem reapLost_one (hS : Q.Sound) (ch now : Nat) {s : Quic I Q} {id : Nat} {l : List Nat} (hd : s.doom = id :: l)
    (hh : s.hot = some ch) : Moves cfg env X T s (s.reapLost cfg env T ch now id) ∧ (s.reapLost cfg env T ch now id).hot = s.hot ∧
        (s.reapLost cfg env T ch now id).doom = s.doom.tail := by
  unfold reapLost
  cases hb : s.bridges.get? id with
  | none => exact ⟨.one (.doomGone id l hd hb), rfl, rfl⟩
  | some b =>
    have h0 := tweaks (cfg := cfg) (X := X) (T := T) hb (BMoves.one (.fail (CI := env.CI) (CA := env.CA) b .connectionLost))
    obtain ⟨m1, m2, m3, m4, m5, m6⟩ := drainReap_moves (cfg := cfg) (env := env) (X := X) (T := T) hS
      (s := s.tweak id (b.fail .connectionLost)) (ch := ch) now true
      (get?_insert_self s.bridges id _) (fail_terminal b _) (by simpa using ⟨hh, l, hd⟩)
    exact ⟨h0.trans m1, m2, m3⟩

theorem Clock.reapLosts (hQ : Q.Sound) {ch : Nat} (hS : S ch) (now : Nat) : ∀ (l : List Nat) {s : Quic I Q}, s.doom = l → s.hot = some ch →
    NodeInv cfg env X s → Clock L S P s → Clock L S P (l.foldl (reapLost cfg env T ch now) s) := by
  intro l
  induction l with
  | nil => intro s _ _ _ h; exact h
  | cons id l ih =>
    intro s hd hh hN h
    obtain ⟨m1, m2, m3⟩ := reapLost_one (cfg := cfg) (env := env) (X := X) (T := T) hQ ch now hd hh
    rw [List.foldl_cons]
    refine ih (by rw [m3, hd]; rfl) (m2.trans hh) (hN.moves hQ m1) ?_
    unfold Quic.reapLost
    cases hb : s.bridges.get? id with
    | none => exact h.congr
    | some b =>
      obtain ⟨b', hb', hc⟩ := hN.place.doomed id (by rw [hd]; simp)
      rw [hb] at hb'; cases hb'
      rw [hh] at hc; cases hc
      apply Clock.drainReap
      · refine (h.mono (L' := plus L id) (P' := plus P id) (fun _ => .inl) (fun _ h => h) (fun _ => .inl)).tweak (.inr rfl) (fun _ hp => absurd (.inr rfl) hp)
      · rw [(fail_steady b _).2.1]; exact hS

theorem reconcile_only (t : ConnTable Q.C Q.V A) (ch : Nat) : Only ch t (t.reconcile Q ch) := by
  unfold ConnTable.reconcile
  split
  · exact .refl ..
  · next e he =>
    split
    · exact .refl ..
    · dsimp only
      split
      · exact Only.insert he
      · exact (Only.insert he : Only ch t { t with conns := t.conns.insert ch { e.touch Q with pendingIndexed := false } })

theorem Clock.settleConn (hQ : Q.Sound) {s : Quic I Q} {ch : Nat} (hS : S ch) (now : Nat) (a b c : Bool) (hh : s.hot = some ch)
    (hd : s.doom = []) (hN : NodeInv cfg env X s) (h : Clock L S P s) : Clock L S P (s.settleConn cfg env T ch now a b c).1 := by
  unfold Quic.settleConn
  split
  · exact h.congr
  · next e he =>
    dsimp only
    have key : ∀ s' : Quic I Q, Clock L S P s' → ∀ ev,
        Clock L S P { s'.putTable ch (s'.table.reconcile Q ch) with hot := none, eventful := ev } :=
      fun s' h' ev => h'.table (reconcile_only _ _) hS
    apply key
    split
    · have h1 : Clock L S P (s.takeBucket ch) := h.congr
      exact Clock.reapLosts hQ hS now _ rfl hh (hN.moves hQ (T := T) (.one (.takeBucket ch hh hd))) h1
    · exact h

theorem Clock.serviceOne (hQ : Q.Sound) {s : Quic I Q} {ch : Nat} (hS : S ch) (now : Nat) (hh : s.hot = none ∨ s.hot = some ch)
    (hd : s.doom = []) (hN : NodeInv cfg env X s) (h : Clock L S P s) : Clock L S P (s.serviceOne cfg env X T ch now).1 := by
  unfold Quic.serviceOne
  split
  · exact h.congr
  · next e he =>
    dsimp only
    have h1 := feed_went (cfg := cfg) (env := env) (X := X) (T := T) (s := { s with hot := some ch }) now rfl
    have h2 := h1.trans (pollLoop_went hQ ch now Q.fuel _ false false (h1.hot.trans rfl) (h1.doom.trans hd))
    have h3 := h2.trans (endpointLoop_went ch Q.fuel _ h2.hot)
    have h4 := h3.trans (datagramLoop_went ch Q.fuel _ h3.hot)
    refine Clock.settleConn (X := X) hQ hS now _ _ _ h4.hot (h4.doom.trans hd) (hN.moves hQ ((Moves.one (.heat ch hh)).trans h4.moves)) ?_
    have c0 : Clock L S P { s with hot := some ch } := h.congr
    exact Clock.datagramLoop hS _ (Clock.endpointLoop hS _ (Clock.pollLoop hS now _ _ _ (Clock.feed c0 hS now)))

theorem Clock.flushOne {s : Quic I Q} {ch : Nat} (now : Nat) (h : Clock L (plus S ch) P s) : Clock L S P (s.flushOne ch now) := by
  unfold Quic.flushOne
  have h1 := h.reapConn ch
  split
  · next s' hx =>
    rw [hx] at h1
    refine Clock.congr (s := s') (h1.narrow ?_)
    rintro c (h | rfl)
    · exact .inl h
    · right
      revert hx
      unfold Quic.reapConn ConnTable.reapIfDrained Quic.table
      cases he : s.pool.table.conns.get? c with
      | none => intro h; cases h
      | some e =>
        dsimp only
        cases hq : Q.drained e.conn with
        | false => intro h; cases h
        | true => intro h; cases h; exact (get?_erase _ _ _).trans (if_pos rfl)
  · next s' hx =>
    rw [hx] at h1
    exact h1.collectConn now

theorem Clock.resume (now : Nat) (peer : Option A) {d : Quic I Q × Option Nat × List Nat} (h : Clock L (plusL S d.2.2) P d.1) :
    Clock L (plusL S (resume cfg env X T d peer now).2.touched) P (resume cfg env X T d peer now).1 := by
  unfold Quic.resume
  split
  · exact h
  · next p =>
    dsimp only
    have h1 := Clock.drainReady (cfg := cfg) (env := env) (T := T) now d.2.1
      (Clock.enqueueAll (h.servicePeer (cfg := cfg) (env := env) (X := X) p now (some Q_DIALS)))
    refine h1.weakS ?_
    rintro c (((h | h) | h) | h)
    · exact .inl h
    · exact .inr ((mem_merge _).2 (.inl ((mem_merge _).2 (.inl h))))
    · exact .inr ((mem_merge _).2 (.inr h))
    · exact .inr ((mem_merge _).2 (.inl ((mem_merge _).2 (.inr h))))

theorem Clock.reconcileCatchup {s : Quic I Q} (h : Clock L S P s) (now : Nat) : Clock L S P (s.reconcileCatchup X now) := by
  unfold Quic.reconcileCatchup
  split
  · exact h.congr
  · split
    · exact h.congr
    · exact h

theorem Clock.serviceConnection (hQ : Q.Sound) {s : Quic I Q} {ch : Nat} (now : Nat) (hh : s.hot = none ∨ s.hot = some ch)
    (hd : s.doom = []) (hN : NodeInv cfg env X s) (h : Clock L (plus S ch) P s) : Clock L S P (s.serviceConnection cfg env X T ch now) := by
  unfold Quic.serviceConnection
  dsimp only
  have h1 := Clock.serviceOne (T := T) hQ (S := plus S ch) (.inr rfl) now hh hd hN h
  generalize s.serviceOne cfg env X T ch now = r at h1
  have h2 := Clock.drainReady (cfg := cfg) (env := env) (T := T) now (some Q_PUMPS) h1
  generalize r.1.drainReady cfg env T now (some Q_PUMPS) = d at h2
  have fin : ∀ peer, Clock L S P (((((Quic.resume cfg env X T d peer now).1.flushOne ch now).collect now
      ((Quic.resume cfg env X T d peer now).2.touched.filter (· ≠ ch))).serviceFreed cfg env X T now (Quic.resume cfg env X T d peer now).2.pumps
      (Quic.resume cfg env X T d peer now).2.dials).1.collect now ((((Quic.resume cfg env X T d peer now).1.flushOne ch now).collect now
      ((Quic.resume cfg env X T d peer now).2.touched.filter (· ≠ ch))).serviceFreed cfg env X T now (Quic.resume cfg env X T d peer now).2.pumps
      (Quic.resume cfg env X T d peer now).2.dials).2.touched) := by
    intro peer
    have h3 := Clock.resume (cfg := cfg) (env := env) (X := X) (T := T) now peer h2
    generalize Quic.resume cfg env X T d peer now = k at h3
    have h4 : Clock L (plusL S (k.2.touched.filter (· ≠ ch))) P (k.1.flushOne ch now) := by
      apply Clock.flushOne
      refine h3.weakS ?_
      rintro c ((h | h) | h)
      · exact .inl (.inl h)
      · exact .inr h
      · by_cases hc : c = ch
        · exact .inr hc
        · exact .inl (.inr (List.mem_filter.2 ⟨h, by simpa using hc⟩))
    have h5 := Clock.serviceFreed (cfg := cfg) (env := env) (X := X) (T := T) (h4.collect now) now k.2.pumps k.2.dials
    exact h5.collect now
  exact (fin _).reconcileCatchup now

theorem Clock.serviceQuinn (hQ : Q.Sound) {s : Quic I Q} (now : Nat) (hi : Idle s) (hN : NodeInv cfg env X s)
    (h : Clock L (fun _ => True) P s) : Clock L (fun _ => True) P (s.serviceQuinn cfg env X T now).1 := by
  have key : ∀ (l : List Nat) (r : Quic I Q × List A), Idle r.1 → NodeInv cfg env X r.1 → Clock L (fun _ => True) P r.1 →
      Clock L (fun _ => True) P (l.foldl (fun r ch =>
      let m := r.1.serviceOne cfg env X T ch now
      (m.1, (m.2.credit.toList ++ (m.1.establishedPeer ch m.2).toList).foldl residue r.2)) r).1 := by
    intro l
    induction l with
    | nil => intro r _ _ h; exact h
    | cons ch l ih =>
      intro r hr hN h
      have h1 := serviceOne_cooled (cfg := cfg) (env := env) (X := X) (T := T) hQ ch now (.inl hr.hot) hr.calm.doom
      rw [List.foldl_cons]
      refine ih _ ⟨⟨h1.doom, h1.hand.trans hr.calm.hand, h1.limbo.trans hr.calm.limbo⟩, h1.hot⟩ (hN.moves hQ h1.moves) ?_
      exact Clock.serviceOne hQ trivial now (.inl hr.hot) hr.calm.doom hN h
  have r0 := hi.went (cfg := cfg) (env := env) (X := X) (T := T) (b := { s with tick := s.tick + 1 }) (.one (.book ..))
  unfold Quic.serviceQuinn
  exact key _ _ r0.idle (hN.moves hQ r0.moves) (Clock.congr h)

/-- No bridge is queued. -/
def Still (s : Quic I Q) : Prop := ∀ id b, s.bridges.get? id = some b → b.queued = false

theorem Clock.reapFold : ∀ (l : List Nat) {s : Quic I Q}, Clock L S P s → Clock L S P (l.foldl (fun s ch => (s.reapConn ch).1) s) := by
  intro l
  induction l with
  | nil => intro s h; exact h
  | cons ch l ih => intro s h; exact ih (h.reapConn ch)

end Verif.Quic
