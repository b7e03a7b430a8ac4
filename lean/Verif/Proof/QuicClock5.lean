import Verif.Proof.QuicClock4
/-
The timers of the QUIC node at the end of every call.
-/
namespace Verif.Quic
open Verif Map QBridge
variable {I A : Type} [DecidableEq I] [DecidableEq A] {Q : Quinn A}
variable {cfg : Cfg I A} {env : Env I A} {X : QCfg} {T : TEnv}
variable {L S P : Nat → Prop}

/-! ### The queue is left alone by the work on a bridge -/

theorem complete_ready (s : Quic I Q) (id : Nat) (ok : Bool) (r : List Nat) :
    { s with ready := r }.complete cfg env id ok = { s.complete cfg env id ok with ready := r } := by
  unfold Quic.complete
  dsimp only
  cases s.kinds.get? id with
  | none => rfl
  | some k =>
    dsimp only
    cases s.peers.get? id <;> rfl

theorem freeSlot_ready (s : Quic I Q) (ch : Nat) (r : List Nat) :
    { s with ready := r }.freeSlot ch = { s.freeSlot ch with ready := r } := by
  unfold Quic.freeSlot Quic.table
  dsimp only
  cases s.pool.table.conns.get? ch <;> rfl

theorem unslot_ready (s : Quic I Q) (ch slot : Nat) (r : List Nat) :
    { s with ready := r }.unslot ch slot = { s.unslot ch slot with ready := r } := by
  unfold Quic.unslot
  dsimp only
  cases s.byConn.get? ch with
  | none => rfl
  | some l =>
    dsimp only
    split <;> rfl

theorem reapBridge_ready (s : Quic I Q) (id : Nat) (b : QBridge I A) (ch : Nat) (r : List Nat) :
    { s with ready := r }.reapBridge cfg env id b ch false = { s.reapBridge cfg env id b ch false with ready := r } := by
  unfold Quic.reapBridge
  dsimp only
  rw [show ({ s with ready := r } : Quic I Q).unindex id ch b.sid = { s.unindex id ch b.sid with ready := r } from rfl]
  simp only [Bool.false_eq_true, if_false]
  rw [unslot_ready]
  split
  · rw [freeSlot_ready, complete_ready]
  · rw [complete_ready]

theorem drainReap_ready (s : Quic I Q) (id : Nat) (b : QBridge I A) (ch now : Nat) (r : List Nat) :
    { s with ready := r }.drainReap cfg env T id b ch now false = { s.drainReap cfg env T id b ch now false with ready := r } := by
  unfold Quic.drainReap
  dsimp only
  exact reapBridge_ready (s.putDrain id (QBridge.drainThenReap cfg env T Q s.cmp s.ep s.table b now)) id _ ch r

theorem pumpOne_ready (now : Nat) (s : Quic I Q) (id : Nat) (r : List Nat) :
    Quic.pumpOne cfg env T now { s with ready := r } id =
      ({ (s.pumpOne cfg env T now id).1 with ready := r }, (s.pumpOne cfg env T now id).2) := by
  unfold Quic.pumpOne
  dsimp only
  cases s.bridges.get? id with
  | none => rfl
  | some b =>
    dsimp only
    congr 1
    rw [show ({ s with ready := r } : Quic I Q).begin id b = { s.begin id b with ready := r } from rfl]
    generalize s.begin id b = s1
    unfold Quic.afterPump
    dsimp only
    change (if _ then _ else _) = _
    generalize hw : (({ b with queued := false } : QBridge I A).pumpIn env.CI env.CA T Q s1.table now).1.pumpOut Q T
      (({ b with queued := false } : QBridge I A).pumpIn env.CI env.CA T Q s1.table now).2 now = w
    have hw' : (({ b with queued := false } : QBridge I A).pumpIn env.CI env.CA T Q ({ s1 with ready := r } : Quic I Q).table now).1.pumpOut Q T
      (({ b with queued := false } : QBridge I A).pumpIn env.CI env.CA T Q ({ s1 with ready := r } : Quic I Q).table now).2 now = w := hw
    rw [hw']
    rw [show ({ s1 with ready := r } : Quic I Q).putWork id w = { s1.putWork id w with ready := r } from rfl]
    generalize s1.putWork id w = s2
    by_cases ht : w.1.isTerminal = true
    · rw [if_pos ht, if_pos ht]
      exact drainReap_ready ..
    · rw [if_neg ht, if_neg ht]
      unfold Quic.afterDrain
      dsimp only
      change (if _ then _ else _) = _
      generalize hr : drainPayloadOnly cfg env T Q s2.cmp s2.ep s2.table w.1 now = k
      have hr' : drainPayloadOnly cfg env T Q s2.cmp s2.ep ({ s2 with ready := r } : Quic I Q).table w.1 now = k := hr
      rw [hr']
      rw [show ({ s2 with ready := r } : Quic I Q).putDrain id k = { s2.putDrain id k with ready := r } from rfl]
      generalize s2.putDrain id k = s3
      by_cases ht2 : k.2.1.isTerminal = true
      · rw [if_pos ht2, if_pos ht2]
        exact drainReap_ready ..
      · rw [if_neg ht2, if_neg ht2]
        rfl

theorem pumpOne_keeps (now : Nat) (s : Quic I Q) (id : Nat) : (s.pumpOne cfg env T now id).1.ready = s.ready := by
  have := pumpOne_ready (cfg := cfg) (env := env) (T := T) now s id s.ready
  have h2 := congrArg (fun r => r.1.ready) this
  exact h2

theorem readyLoop_empty (now : Nat) : ∀ (n : Nat) (s : Quic I Q) (conns : List Nat), s.ready.length ≤ n →
    (s.readyLoop cfg env T now n conns).1.ready = [] := by
  intro n
  induction n with
  | zero => intro s conns h; exact List.length_eq_zero_iff.1 (Nat.le_zero.1 h)
  | succ n ih =>
    intro s conns h
    unfold Quic.readyLoop
    split
    · assumption
    · next id rest hr =>
      apply ih
      rw [pumpOne_keeps]
      rw [hr] at h
      exact Nat.le_of_succ_le_succ h

theorem drainReady_empty (now : Nat) (s : Quic I Q) : (s.drainReady cfg env T now none).1.ready = [] :=
  readyLoop_empty now _ _ _ (Nat.le_refl _)

theorem pumpAll_ready (now : Nat) (s : Quic I Q) (r : List Nat) :
    { s with ready := r }.pumpAll cfg env T now = { s.pumpAll cfg env T now with ready := r } := by
  unfold Quic.pumpAll
  dsimp only
  have key : ∀ (l : List Nat) (s : Quic I Q), l.foldl (fun s id => (s.pumpOne cfg env T now id).1) { s with ready := r } =
      { l.foldl (fun s id => (s.pumpOne cfg env T now id).1) s with ready := r } := by
    intro l
    induction l with
    | nil => intro s; rfl
    | cons x l ih =>
      intro s
      rw [List.foldl_cons, List.foldl_cons, pumpOne_ready]
      exact ih _
  exact key _ { s with tick := s.tick + 1 }

theorem Clock.any {s s' : Quic I Q} (h : Clock L S P s) (hi : s'.index = s.index := by rfl) (hb : s'.bridges = s.bridges := by rfl)
    (hc : s'.pool.table.conns = s.pool.table.conns := by rfl) : Clock L S (fun _ => True) s' :=
  ⟨by rw [hi]; exact h.wf, by rw [hi, hb]; exact h.lone, by rw [hi, hb]; exact h.bridge, by rw [hi, hc]; exact h.bare,
   by rw [hi, hc]; exact h.conn, fun _ _ hp => absurd trivial hp⟩

theorem Clock.pumpAll_still {s : Quic I Q} (now : Nat) (h : Clock L S P s) : Still (s.pumpAll cfg env T now) := by
  have h1 := Clock.pumpAll (cfg := cfg) (env := env) (T := T) now (h.any (s' := { s with ready := [] }))
  rw [pumpAll_ready] at h1
  intro id b hb
  cases hq : b.queued with
  | false => rfl
  | true => exact absurd (h1.queued id b (fun h => h) hb hq) (by simp)

theorem Clock.still {s : Quic I Q} (h : Clock L S (fun _ => False) s) (hr : s.ready = []) : Still s := by
  intro id b hb
  cases hq : b.queued with
  | false => rfl
  | true => exact absurd (h.queued id b (fun h => h) hb hq) (by rw [hr]; simp)

theorem freedPeer_still (now : Nat) {r : Quic I Q × Pass} (hp : r.2.pumps = none) (peer : A) :
    (freedPeer cfg env X T now r peer).1.ready = [] ∧ (freedPeer cfg env X T now r peer).2.pumps = none := by
  unfold Quic.freedPeer
  dsimp only
  rw [hp]
  exact ⟨drainReady_empty _ _, rfl⟩

theorem freedFold_still (now : Nat) : ∀ (l : List A) {r : Quic I Q × Pass}, r.2.pumps = none →
    Clock L (fun _ => True) (fun _ => False) r.1 → Still r.1 →
    let k := l.foldl (freedPeer cfg env X T now) r
    k.2.pumps = none ∧ Clock L (fun _ => True) (fun _ => False) k.1 ∧ Still k.1 := by
  intro l
  induction l with
  | nil => intro r hp h hs; exact ⟨hp, h, hs⟩
  | cons p l ih =>
    intro r hp h hs
    have h1 := freedPeer_still (cfg := cfg) (env := env) (X := X) (T := T) now hp p
    have h2 : Clock L (fun _ => True) (fun _ => False) (freedPeer cfg env X T now r p).1 :=
      (Clock.freedPeer (S := fun _ => True) now (h.weakS (fun _ => .inl)) p).weakS (fun _ _ => trivial)
    exact ih h1.2 h2 (h2.still h1.1)

theorem freedLoop_still (now : Nat) : ∀ (n : Nat) {r : Quic I Q × Pass}, r.2.pumps = none →
    Clock L (fun _ => True) (fun _ => False) r.1 → Still r.1 →
    Clock L (fun _ => True) (fun _ => False) (freedLoop cfg env X T now n r).1 ∧ Still (freedLoop cfg env X T now n r).1 := by
  intro n
  induction n with
  | zero =>
    intro r hp h hs
    unfold Quic.freedLoop
    split
    · exact ⟨h, hs⟩
    · exact ⟨h.congr, hs⟩
  | succ n ih =>
    intro r hp h hs
    unfold Quic.freedLoop
    split
    · exact ⟨h, hs⟩
    · obtain ⟨h1, h2, h3⟩ := freedFold_still (cfg := cfg) (env := env) (X := X) (T := T) now r.1.freed
        (r := ({ r.1 with freed := [] }, r.2)) hp (h.congr) hs
      exact ih h1 h2 h3

theorem reapConn_bridges (s : Quic I Q) (ch : Nat) : (s.reapConn ch).1.bridges = s.bridges := by
  unfold Quic.reapConn; split <;> rfl
theorem collectConn_bridges (now : Nat) (s : Quic I Q) (ch : Nat) : (s.collectConn now ch).bridges = s.bridges := by
  unfold Quic.collectConn; split <;> rfl

theorem finalize_bridges (s : Quic I Q) (now : Nat) : (s.finalize T now).bridges = s.bridges := by
  have h1 : ∀ (l : List Nat) (s : Quic I Q), (l.foldl (fun s ch => (s.reapConn ch).1) s).bridges = s.bridges := by
    intro l
    induction l with
    | nil => intro s; rfl
    | cons x l ih => intro s; exact (ih _).trans (reapConn_bridges s x)
  have h2 : ∀ (l : List Nat) (s : Quic I Q), (l.foldl (collectConn now) s).bridges = s.bridges := by
    intro l
    induction l with
    | nil => intro s; rfl
    | cons x l ih => intro s; exact (ih _).trans (collectConn_bridges now s x)
  unfold Quic.finalize Quic.collectAll
  dsimp only
  rw [h2]
  exact h1 _ _

/-- Nothing is exempt. -/
abbrev Kept0 (s : Quic I Q) : Prop := Clock (fun _ => False) (fun _ => False) (fun _ => False) s

theorem Clock.finalize {s : Quic I Q} (now : Nat) (h : Clock (fun _ => False) S P s) (hs : Still s) : Kept0 (s.finalize T now) := by
  have hb := finalize_bridges (T := T) s now
  have h1 : Clock (fun _ => False) (fun _ => False) P (Quic.collectAll T
      ((T.order s.tick s.table.conns.keys).foldl (fun s ch => (s.reapConn ch).1) { s with tick := s.tick + 1 }) now) :=
    Clock.collectAll now (Clock.reapFold _ (Clock.congr h))
  have h2 : Clock (fun _ => False) (fun _ => False) (fun _ => True) (s.finalize T now) := h1.any
  refine ⟨h2.wf, h2.lone, h2.bridge, h2.bare, h2.conn, fun id b _ hx hq => ?_⟩
  rw [hb] at hx
  rw [hs id b hx] at hq; cases hq

/-! ### The calls -/

theorem Clock.wrap {s : Quic I Q} (now : Nat) (h : Clock L S P s) :
    Kept0 (Quic.finalize T ((s.pumpAll cfg env T now).serviceFreed cfg env X T now none none).1 now) := by
  have h1 := Clock.pumpAll (cfg := cfg) (env := env) (T := T) now h
  have h2 := Clock.pumpAll_still (cfg := cfg) (env := env) (T := T) now h
  generalize s.pumpAll cfg env T now = s1 at h1 h2
  obtain ⟨h3, h4⟩ := freedLoop_still (cfg := cfg) (env := env) (X := X) (T := T) now (iterCap X) (r := (s1, { pumps := none, dials := none })) rfl h1 h2
  exact Clock.finalize now h3 h4

theorem Clock.runTick (hQ : Q.Sound) {s : Quic I Q} (now : Nat) (hi : Idle s) (hN : NodeInv cfg env X s) (h : Kept0 s) :
    Kept0 (s.runTick cfg env X T now) := by
  unfold Quic.runTick
  dsimp only
  apply Clock.wrap
  have r1 := (hi.went (pumpAll_went (cfg := cfg) (env := env) (X := X) (T := T) hQ now s hi.calm.doom)).went
    (fun _ => (.one (.call none (.timeout now) trivial) : Went cfg env X T _ ((s.pumpAll cfg env T now).callEp cfg env none (.timeout now)).1))
  have h1 : Clock (fun _ => False) (fun _ => True) (fun _ => False) ((s.pumpAll cfg env T now).callEp cfg env none (.timeout now)).1 :=
    Clock.congr (Clock.pumpAll (cfg := cfg) (env := env) (T := T) now h)
  have h2 := Clock.serviceQuinn (T := T) hQ now r1.idle (hN.moves hQ r1.moves) h1
  have h3 := Clock.serviceDials (cfg := cfg) (env := env) (X := X) (T := T) h2 now
  exact Clock.congr h3

theorem Clock.peers (now : Nat) (b : Option Nat) : ∀ (l : List A) {L S : Nat → Prop} {s : Quic I Q}, Clock L S P s →
    ∃ L' S', Clock L' S' P (l.foldl (fun s p => (s.servicePeer cfg env X p now b).1) s) := by
  intro l
  induction l with
  | nil => intro L S s h; exact ⟨L, S, h⟩
  | cons p l ih => intro L S s h; exact ih (h.servicePeer p now b)

theorem Clock.flush (hQ : Q.Sound) {s : Quic I Q} (now : Nat) (hi : Idle s) (hN : NodeInv cfg env X s) (h : Kept0 s) :
    Kept0 (s.flush cfg env X T now) := by
  unfold Quic.flush
  dsimp only
  have r1 := (hi.went (pumpAll_went (cfg := cfg) (env := env) (X := X) (T := T) hQ now s hi.calm.doom))
  have h1 := Clock.pumpAll (cfg := cfg) (env := env) (T := T) now h
  have h2 := Clock.serviceQuinn (T := T) hQ now r1.idle (hN.moves hQ r1.moves) h1
  generalize (s.pumpAll cfg env T now).serviceQuinn cfg env X T now = r at h2
  obtain ⟨L1, S1, h3⟩ := Clock.peers (cfg := cfg) (env := env) (X := X) now none r.2 h2
  generalize r.2.foldl (fun s p => (s.servicePeer cfg env X p now none).1) r.1 = s2 at h3
  obtain ⟨L2, S2, h4⟩ := Clock.peers (cfg := cfg) (env := env) (X := X) now none s2.readyDials (s := { s2 with readyDials := [] }) (Clock.congr h3)
  exact Clock.wrap now h4

theorem Clock.readyDialLoop (now : Nat) : ∀ (n : Nat) {r : Quic I Q × Pass}, Clock L (plusL S r.2.touched) P r.1 →
    Clock L (plusL S (readyDialLoop cfg env X now n r).2.touched) P (readyDialLoop cfg env X now n r).1 := by
  intro n
  induction n with
  | zero => intro r h; exact h
  | succ n ih =>
    intro r h
    unfold Quic.readyDialLoop
    split
    · exact h
    · split
      · exact h
      · next p rest hr =>
        apply ih
        dsimp only
        rw [plusL_merge]
        apply Clock.enqueueAll
        exact Clock.servicePeer (Clock.congr h) p now r.2.dials

theorem Clock.catchupService {s : Quic I Q} (now : Nat) (h : Clock L S P s) : Clock L S P (s.catchupService cfg env X T now) := by
  unfold Quic.catchupService
  dsimp only
  have h1 := Clock.readyDialLoop (cfg := cfg) (env := env) (X := X) (S := S) now (Nat.min Q_VISITS s.readyDials.length)
    (r := (s, { pumps := some Q_PUMPS, dials := some Q_DIALS })) (by rw [plusL_nil]; exact h)
  generalize Quic.readyDialLoop cfg env X now (Nat.min Q_VISITS s.readyDials.length)
    (s, { pumps := some Q_PUMPS, dials := some Q_DIALS }) = r at h1
  have h2 := Clock.drainReady (cfg := cfg) (env := env) (T := T) now r.2.pumps h1
  generalize r.1.drainReady cfg env T now r.2.pumps = d at h2
  have h3 := Clock.serviceFreed (cfg := cfg) (env := env) (X := X) (T := T) h2 now d.2.1 r.2.dials
  have h4 : Clock L (plusL S (merge (merge r.2.touched d.2.2) (d.1.serviceFreed cfg env X T now d.2.1 r.2.dials).2.touched)) P
      (d.1.serviceFreed cfg env X T now d.2.1 r.2.dials).1 := by
    rw [plusL_merge, plusL_merge]; exact h3
  exact Clock.congr (h4.collect now)

theorem Clock.tryNew {s : Quic I Q} (now : Nat) (h : Clock L S P s) : Clock L S P (s.tryNew cfg env X T now) := by
  unfold Quic.tryNew
  split
  · dsimp only
    have h0 : Clock L S P s.takeDials := h.congr
    generalize s.takeDials = s1 at h0
    have h1 := Clock.processAll (cfg := cfg) (env := env) (X := X) now s1.hand h0
    generalize Quic.processAll cfg env X now s1.hand s1 = r at h1
    have h2 := Clock.drainReady (cfg := cfg) (env := env) (T := T) now (some Q_PUMPS) h1.enqueueAll
    apply Clock.collect
    rw [plusL_merge, plusL_merge, plusL_nil]
    exact h2
  · exact h

theorem Clock.immediateService (hQ : Q.Sound) {s : Quic I Q} (now : Nat) (hi : Idle s) (hN : NodeInv cfg env X s) (h : Clock L S P s) :
    Clock L S P (s.immediateService cfg env X T now) := by
  have key : ∀ (l : List Nat) (s : Quic I Q), Idle s → NodeInv cfg env X s → Clock L S P s →
      Clock L S P (l.foldl (fun s ch => s.serviceConnection cfg env X T ch now) s) := by
    intro l
    induction l with
    | nil => intro s _ _ h; exact h
    | cons ch l ih =>
      intro s hi hN h
      have r1 := serviceConnection_ran (cfg := cfg) (env := env) (X := X) (T := T) hQ ch now (.inl hi.hot) hi.calm
      exact ih _ r1.idle (hN.moves hQ r1.moves)
        (Clock.serviceConnection hQ now (.inl hi.hot) hi.calm.doom hN (h.weakS (fun _ => .inl)))
  have r0 := hi.went (cfg := cfg) (env := env) (X := X) (T := T) (b := { s with tick := s.tick + 1 }) (.one (.book ..))
  unfold Quic.immediateService
  dsimp only
  have h1 := key (T.order s.tick s.eventful) _ r0.idle (hN.moves hQ r0.moves) (h.congr)
  have h2 := Clock.serviceFreed (cfg := cfg) (env := env) (X := X) (T := T)
    (Clock.tryNew (cfg := cfg) (env := env) (X := X) (T := T) now h1) now (some Q_PUMPS) (some Q_DIALS)
  exact (h2.collect now).reconcileCatchup now

theorem Clock.refresh {s : Quic I Q} (h : Clock L S P s) : Clock L S P s.refresh := by
  unfold Quic.refresh Quic.refreshImmediate
  exact Clock.timer (Clock.timer (Clock.timer h _ _ (by intro _ h; cases h) (by intro _ h; cases h)) _ _
    (by intro _ h; cases h) (by intro _ h; cases h)) _ _ (by intro _ h; cases h) (by intro _ h; cases h)

theorem Clock.timeout (hQ : Q.Sound) {s : Quic I Q} (now : Nat) (hi : Idle s) (hN : NodeInv cfg env X s) (h : Kept0 s) :
    Kept0 (s.timeout cfg env X T now) := by
  unfold Quic.timeout
  have r0 := (hi.went (cfg := cfg) (env := env) (X := X) (T := T) (b := { s with lastNow := some now }) (.one (.book ..))).went (fun _ => refresh_went _)
  have hN0 := hN.moves hQ r0.moves
  have hi0 := r0.idle
  have h0 : Kept0 (Quic.refresh { s with lastNow := some now }) := Clock.refresh (Clock.congr h)
  generalize Quic.refresh { s with lastNow := some now } = s0 at hN0 hi0 h0
  unfold Quic.wake
  dsimp only
  split
  · exact Clock.runTick hQ now hi0 hN0 h0
  · split
    · unfold Quic.between
      dsimp only
      have h1 : Kept0 (if (s0.catchupAt.any (fun t => t ≤ now) && s0.hasResidue) = true then s0.catchupService cfg env X T now else s0) := by
        split
        · exact h0.catchupService now
        · exact h0
      have r1 : Ran cfg env X T s0 (if (s0.catchupAt.any (fun t => t ≤ now) && s0.hasResidue) = true then s0.catchupService cfg env X T now else s0) := by
        split
        · exact catchup_ran hQ now hi0
        · exact .refl hi0
      split
      · exact Clock.immediateService hQ now r1.idle (hN0.moves hQ r1.moves) h1
      · exact h1
    · exact Clock.runTick hQ now hi0 hN0 h0

end Verif.Quic
