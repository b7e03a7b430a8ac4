import Verif.Proof.QuicClock
/-
The timers of the QUIC node through the work on bridges and dials.
-/
namespace Verif.Quic
open Verif Map QBridge
variable {I A : Type} [DecidableEq I] [DecidableEq A] {Q : Quinn A}
variable {cfg : Cfg I A} {env : Env I A} {X : QCfg} {T : TEnv}
variable {L S P : Nat → Prop}

/-! ### The end of a bridge -/

theorem Clock.unindex {s : Quic I Q} {id : Nat} (h : Clock (plus L id) S (plus P id) s) (ch sid : Nat) :
    Clock L S P (s.unindex id ch sid) := by
  refine ⟨DeadlineIndex.inv_set h.wf (.bridge id) none, fun x hx => ?_, fun x b hl hx => ?_, fun c hc => ?_, fun c e hs hc => ?_,
    fun x b hp hx hb => ?_⟩
  · show (s.index.set _ _).deadlineOf _ = _
    rw [DeadlineIndex.deadlineOf_set]
    split
    · rfl
    · next hn =>
      change (s.bridges.erase id).get? x = none at hx
      rw [get?_erase, if_neg (by rintro rfl; exact hn rfl)] at hx
      exact h.lone x hx
  · show _ ∨ (s.index.set _ _).deadlineOf _ = _
    change (s.bridges.erase id).get? x = some b at hx
    rw [get?_erase] at hx
    split at hx
    · cases hx
    · next hn =>
      rw [DeadlineIndex.deadlineOf_set, if_neg (by intro hy; cases hy; exact hn rfl)]
      exact h.bridge x b (by rintro (h | rfl); exacts [hl h, hn rfl]) hx
  · show (s.index.set _ _).deadlineOf _ = _
    rw [DeadlineIndex.deadlineOf_set, if_neg (by intro hx; cases hx)]; exact h.bare c hc
  · show (s.index.set _ _).deadlineOf _ = _
    rw [DeadlineIndex.deadlineOf_set, if_neg (by intro hx; cases hx)]; exact h.conn c e hs hc
  · change (s.bridges.erase id).get? x = some b at hx
    rw [get?_erase] at hx
    split at hx
    · cases hx
    · next hn => exact h.queued x b (by rintro (h | rfl); exacts [hp h, hn rfl]) hx hb

/-- Only slots changed. -/
theorem Clock.slots {s s' : Quic I Q} (h : Clock L S P s)
    (hb : ∀ id, (s'.bridges.get? id = none ↔ s.bridges.get? id = none) ∧
      ∀ b', s'.bridges.get? id = some b' → ∃ b, s.bridges.get? id = some b ∧ b'.queued = b.queued ∧ b'.pollTimeout = b.pollTimeout)
    (hi : s'.index = s.index := by rfl)
    (hc : s'.pool.table.conns = s.pool.table.conns := by rfl) (hr : s'.ready = s.ready := by rfl) : Clock L S P s' := by
  refine ⟨by rw [hi]; exact h.wf, fun x hx => ?_, fun x b hl hx => ?_, by rw [hi, hc]; exact h.bare, by rw [hi, hc]; exact h.conn,
    fun x b hp hx hq => ?_⟩
  · rw [hi]; exact h.lone x ((hb x).1.1 hx)
  · obtain ⟨b0, h0, h1, h2⟩ := (hb x).2 b hx
    rw [hi, h1, h2]; exact h.bridge x b0 hl h0
  · obtain ⟨b0, h0, h1, h2⟩ := (hb x).2 b hx
    rw [hr]; exact h.queued x b0 hp h0 (h1 ▸ hq)

theorem Clock.unslot {s : Quic I Q} (h : Clock L S P s) (ch slot : Nat) : Clock L S P (s.unslot ch slot) := by
  unfold Quic.unslot
  split
  · exact h
  · dsimp only
    split
    · refine h.slots (fun id => ?_)
      dsimp only
      split
      · next sib _ =>
        rw [get?_modify]
        split
        · next hx =>
          subst hx
          cases hg : s.bridges.get? sib with
          | none => simp
          | some b =>
            refine ⟨by simp, fun b' hb' => ?_⟩
            cases hb'
            exact ⟨b, rfl, rfl, rfl⟩
        · exact ⟨Iff.rfl, fun b' hb' => ⟨b', hb', rfl, rfl⟩⟩
      · exact ⟨Iff.rfl, fun b' hb' => ⟨b', hb', rfl, rfl⟩⟩
    · exact h.congr

/-- Entries of the table change without the connections themselves. -/
theorem Clock.entries {s s' : Quic I Q} (h : Clock L S P s)
    (hc : ∀ c, (s'.pool.table.conns.get? c = none ↔ s.pool.table.conns.get? c = none) ∧
      ∀ e', s'.pool.table.conns.get? c = some e' → ∃ e, s.pool.table.conns.get? c = some e ∧ e'.conn = e.conn)
    (hi : s'.index = s.index := by rfl)
    (hb : s'.bridges = s.bridges := by rfl) (hr : s'.ready = s.ready := by rfl) : Clock L S P s' := by
  refine ⟨by rw [hi]; exact h.wf, by rw [hi, hb]; exact h.lone, by rw [hi, hb]; exact h.bridge, fun c hx => ?_, fun c e hs hx => ?_,
    by rw [hb, hr]; exact h.queued⟩
  · rw [hi]; exact h.bare c ((hc c).1.1 hx)
  · obtain ⟨e0, h0, h1⟩ := (hc c).2 e hx
    rw [hi, h1]; exact h.conn c e0 hs h0

theorem entry_same {t : ConnTable Q.C Q.V A} {ch : Nat} {e e2 : QConn Q.C Q.V A} (he : t.conns.get? ch = some e)
    (h2 : e2.conn = e.conn) (c : Nat) : ((t.conns.insert ch e2).get? c = none ↔ t.conns.get? c = none) ∧
      ∀ e', (t.conns.insert ch e2).get? c = some e' → ∃ e, t.conns.get? c = some e ∧ e'.conn = e.conn := by
  rw [get?_insert]
  split
  · next hx =>
    subst hx
    rw [he]
    refine ⟨by simp, fun e' h => ?_⟩
    cases h; exact ⟨e, rfl, h2⟩
  · exact ⟨Iff.rfl, fun e' h => ⟨e', h, rfl⟩⟩

theorem Clock.freeSlot {s : Quic I Q} (h : Clock L S P s) (ch : Nat) : Clock L S P (s.freeSlot ch) := by
  unfold Quic.freeSlot
  split
  · exact h
  · next e he => exact h.entries (fun c => entry_same (t := s.pool.table) (e2 := { e with outbound := e.outbound - 1 }) he rfl c)

theorem Clock.complete {s : Quic I Q} (h : Clock L S P s) (id : Nat) (ok : Bool) : Clock L S P (s.complete cfg env id ok) := by
  unfold Quic.complete
  split
  · exact h
  · split <;> exact h.congr

theorem Clock.reapBridge {s : Quic I Q} {id : Nat} (h : Clock (plus L id) S (plus P id) s) (b : QBridge I A) (ch : Nat) (lost : Bool) :
    Clock L S P (s.reapBridge cfg env id b ch lost) := by
  unfold Quic.reapBridge
  dsimp only
  apply Clock.complete
  have h1 := h.unindex ch b.sid
  have h2 : Clock L S P (if lost then { s.unindex id ch b.sid with doom := (s.unindex id ch b.sid).doom.tail }
      else (s.unindex id ch b.sid).unslot ch b.slot) := by
    split
    · exact h1.congr
    · exact h1.unslot _ _
  split
  · exact h2.freeSlot _
  · exact h2

/-! ### The work on a bridge -/

theorem Clock.putWork {s : Quic I Q} {id : Nat} (h : Clock L S P s) {w : QBridge I A × ConnTable Q.C Q.V A} {ch : Nat}
    (ho : Only ch s.pool.table w.2) (hS : S ch) (hL : L id) (hq : w.1.queued = true → ¬ P id → id ∈ s.ready) :
    Clock L S P (s.putWork id w) := by
  unfold Quic.putWork
  exact Clock.tweak (s := s.putTable w.1.ch w.2) (h.table ho hS) hL hq

theorem Clock.putDrain {s : Quic I Q} {id : Nat} (h : Clock L S P s)
    {r : Ep I A × QBridge I A × ConnTable Q.C Q.V A × List (Ep.Op I A)} {ch : Nat}
    (ho : Only ch s.pool.table r.2.2.1) (hS : S ch) (hL : L id) (hq : r.2.1.queued = true → ¬ P id → id ∈ s.ready) :
    Clock L S P (s.putDrain id r) :=
  (h.putWork (w := (r.2.1, r.2.2.1)) ho hS hL hq).congr

theorem Clock.drainReap {s : Quic I Q} {id : Nat} (h : Clock (plus L id) S (plus P id) s) (b : QBridge I A) (ch now : Nat) (lost : Bool)
    (hS : S b.ch) : Clock L S P (s.drainReap cfg env T id b ch now lost) := by
  unfold Quic.drainReap
  dsimp only
  apply Clock.reapBridge
  exact h.putDrain (drainThenReap_steady (cfg := cfg) (env := env) (T := T) s.cmp s.ep s.table b now).2 hS (.inr rfl)
    (fun _ hp => absurd (.inr rfl) hp)

/-- The timer of a bridge is read again. -/
theorem Clock.settle {s : Quic I Q} {id : Nat} (h : Clock (plus L id) S (plus P id) s) {b : QBridge I A} (hb : s.bridges.get? id = some b)
    (hq : b.queued = false) (l : List Nat) : Clock L S P { s.setTimer (.bridge id) b.pollTimeout with loose := l } := by
  refine ⟨DeadlineIndex.inv_set h.wf (.bridge id) _, fun x hx => ?_, fun x b' hl hx => ?_, fun c hc => ?_, fun c e hs hc => ?_,
    fun x b' hp hx hb' => ?_⟩
  · show (s.index.set _ _).deadlineOf _ = _
    rw [DeadlineIndex.deadlineOf_set, if_neg]
    · exact h.lone x hx
    · rintro hy
      cases hy
      rw [show s.bridges.get? id = none from hx] at hb; cases hb
  · show _ ∨ (s.index.set _ _).deadlineOf _ = _
    rw [DeadlineIndex.deadlineOf_set]
    split
    · next hy =>
      cases hy
      rw [show s.bridges.get? id = some b' from hx] at hb; cases hb
      exact .inr rfl
    · next hn => exact h.bridge x b' (by rintro (h | rfl); exacts [hl h, hn rfl]) hx
  · show (s.index.set _ _).deadlineOf _ = _
    rw [DeadlineIndex.deadlineOf_set, if_neg (by intro hx; cases hx)]; exact h.bare c hc
  · show (s.index.set _ _).deadlineOf _ = _
    rw [DeadlineIndex.deadlineOf_set, if_neg (by intro hx; cases hx)]; exact h.conn c e hs hc
  · by_cases hxx : x = id
    · subst hxx
      rw [show s.bridges.get? x = some b' from hx] at hb; cases hb
      rw [hq] at hb'; cases hb'
    · exact h.queued x b' (by rintro (h | h); exacts [hp h, hxx h]) hx hb'

theorem Clock.pumpOne {s : Quic I Q} {id : Nat} (now : Nat) (h : Clock (plus L id) S (plus P id) s) :
    Clock L (fun c => S c ∨ (s.pumpOne cfg env T now id).2 = some c) P (s.pumpOne cfg env T now id).1 := by
  unfold Quic.pumpOne
  split
  · next hn =>
    refine ⟨h.wf, h.lone, fun x b hl hx => h.bridge x b ?_ hx, h.bare, fun c e hs hc => h.conn c e (fun h => hs (.inl h)) hc,
      fun x b hp hx hq => h.queued x b ?_ hx hq⟩
    · rintro (h | rfl)
      · exact hl h
      · rw [hn] at hx; cases hx
    · rintro (h | rfl)
      · exact hp h
      · rw [hn] at hx; cases hx
  · next b hb =>
    dsimp only
    have h0 : Clock (plus L id) (fun c => S c ∨ some b.ch = some c) (plus P id) s := h.weakS (fun _ => .inl)
    generalize hSS : (fun c => S c ∨ some b.ch = some c) = S' at h0
    have hS : S' b.ch := by subst hSS; exact .inr rfl
    refine Clock.weakS (S := S') ?_ (by subst hSS; intro c h; exact h)
    have h1 : Clock (plus L id) S' (plus P id) (s.begin id b) :=
      (h0.tweak (id := id) (b := { b with queued := false }) (.inr rfl) (by intro hq; cases hq)).congr
    have hk := pump_steady (CI := env.CI) (CA := env.CA) (T := T) { b with queued := false } (s.begin id b).table now
    generalize hw : (({ b with queued := false } : QBridge I A).pumpIn env.CI env.CA T Q (s.begin id b).table now).1.pumpOut Q T
      (({ b with queued := false } : QBridge I A).pumpIn env.CI env.CA T Q (s.begin id b).table now).2 now = w at hk
    generalize s.begin id b = s1 at h1 hk
    obtain ⟨hk1, hk2⟩ := hk
    have hq1 : w.1.queued = false := hk1.1
    have hc1 : w.1.ch = b.ch := hk1.2.1
    have h2 : Clock (plus L id) S' (plus P id) (s1.putWork id w) :=
      h1.putWork (ch := b.ch) hk2 hS (.inr rfl) (by intro hq; rw [hq1] at hq; cases hq)
    unfold Quic.afterPump
    dsimp only
    split
    · exact h2.drainReap _ _ _ _ (hc1 ▸ hS)
    · have hk3 := drainPayloadOnly_steady (cfg := cfg) (env := env) (T := T) (s1.putWork id w).cmp (s1.putWork id w).ep
        (s1.putWork id w).table w.1 now
      generalize drainPayloadOnly cfg env T Q (s1.putWork id w).cmp (s1.putWork id w).ep (s1.putWork id w).table w.1 now = r at hk3
      generalize s1.putWork id w = s2 at h2 hk3
      obtain ⟨hk3, hk4⟩ := hk3
      rw [hc1] at hk4
      have hq2 : r.2.1.queued = false := hk3.1.trans hq1
      have h3 : Clock (plus L id) S' (plus P id) (s2.putDrain id r) :=
        h2.putDrain hk4 hS (.inr rfl) (by intro hq; rw [hq2] at hq; cases hq)
      unfold Quic.afterDrain
      dsimp only
      split
      · exact h3.drainReap _ _ _ _ (by rw [hk3.2.1, hc1]; exact hS)
      · exact h3.settle (get?_insert_self _ _ _) hq2 _

theorem Clock.readyLoop (now : Nat) : ∀ (n : Nat) {s : Quic I Q} {conns : List Nat}, Clock L (plusL S conns) P s →
    Clock L (plusL S (s.readyLoop cfg env T now n conns).2) P (s.readyLoop cfg env T now n conns).1 := by
  intro n
  induction n with
  | zero => intro s conns h; exact h
  | succ n ih =>
    intro s conns h
    simp only [Quic.readyLoop]
    split
    · exact h
    · next id rest hr =>
      have h1 : Clock (plus L id) (plusL S conns) (plus P id) { s with ready := rest } := by
        refine ⟨h.wf, h.lone, fun x b hl hx => h.bridge x b (fun h => hl (.inl h)) hx, h.bare, h.conn, fun x b hp hx hq => ?_⟩
        have := h.queued x b (fun h => hp (.inl h)) hx hq
        rw [hr] at this
        rcases List.mem_cons.1 this with h | h
        · exact absurd (.inr h) hp
        · exact h
      have h2 := h1.pumpOne (cfg := cfg) (env := env) (T := T) now
      generalize Quic.pumpOne cfg env T now { s with ready := rest } id = r at h2
      apply ih
      refine h2.weakS ?_
      rintro c ((h | h) | h)
      · exact .inl h
      · right
        split
        · unfold residue; split
          · exact h
          · exact List.mem_append_left _ h
        · exact h
      · right
        rw [h]
        show c ∈ residue conns c
        unfold residue; split
        · assumption
        · simp

theorem Clock.drainReady {s : Quic I Q} (now : Nat) (budget : Option Nat) (h : Clock L S P s) :
    Clock L (plusL S (s.drainReady cfg env T now budget).2.2) P (s.drainReady cfg env T now budget).1 := by
  unfold Quic.drainReady
  exact Clock.readyLoop now _ (h.weakS (fun _ => .inl))

/-- Every bridge is worked on. -/
theorem Clock.pumpFold (now : Nat) : ∀ (l : List Nat) {s : Quic I Q}, Clock (plusL L l) (fun _ => True) (plusL P l) s →
    Clock L (fun _ => True) P (l.foldl (fun s id => (s.pumpOne cfg env T now id).1) s) := by
  intro l
  induction l with
  | nil =>
    intro s h
    exact h.mono (by rintro x (h | h); exacts [h, by cases h]) (fun _ h => h) (by rintro x (h | h); exacts [h, by cases h])
  | cons x l ih =>
    intro s h
    rw [List.foldl_cons]
    apply ih
    have h1 : Clock (plus (plusL L l) x) (fun _ => True) (plus (plusL P l) x) s := by
      refine h.mono ?_ (fun _ h => h) ?_
      all_goals
        rintro y (h | h)
        · exact .inl (.inl h)
        · rcases List.mem_cons.1 h with h | h
          · exact .inr h
          · exact .inl (.inr h)
    exact (h1.pumpOne now).weakS (fun _ _ => trivial)

/-- Every bridge is worked on: no exemption is left. -/
theorem Clock.pumpAll {s : Quic I Q} (now : Nat) (h : Clock L S P s) :
    Clock (fun _ => False) (fun _ => True) (fun _ => False) (s.pumpAll cfg env T now) := by
  unfold Quic.pumpAll
  apply Clock.pumpFold
  have h0 : Clock L S P { s with tick := s.tick + 1 } := h.congr
  refine ⟨h0.wf, h0.lone, fun x b hl hx => ?_, h0.bare, fun c e hs _ => absurd trivial hs, fun x b hp hx hq => ?_⟩
  all_goals
    exfalso
    rename_i hn
  · exact hl (.inr ((T.order_perm _ _).mem_iff.2 (mem_keys.2 ⟨b, mem_of_get? hx⟩)))
  · exact hp (.inr ((T.order_perm _ _).mem_iff.2 (mem_keys.2 ⟨b, mem_of_get? hx⟩)))

end Verif.Quic
