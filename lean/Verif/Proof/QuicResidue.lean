import Verif.Proof.QuicDialClock
/-
Work left for later: a tick leaves none, and whatever else leaves some sets the catch-up anchor.
-/
namespace Verif.Quic
open Verif Map QBridge
variable {I A : Type} [DecidableEq I] [DecidableEq A] {Q : Quinn A}
variable {cfg : Cfg I A} {env : Env I A} {X : QCfg} {T : TEnv}

/-! ### The peers with dials left -/

theorem openDial_parked (s : Quic I Q) (d : QDial A) (ch now : Nat) :
    (s.openDial cfg env X d ch now).1.readyDials = s.readyDials ∧
    ((s.openDial cfg env X d ch now).2.res ≠ .reparked → (s.openDial cfg env X d ch now).1.parked = s.parked) := by
  have hr : ∀ (s : Quic I Q), (s.repark X d now).readyDials = s.readyDials := by
    intro s; obtain ⟨w, hw⟩ := repark_eq (X := X) s d now; rw [hw]
  unfold Quic.openDial
  split
  · exact ⟨rfl, fun _ => rfl⟩
  · split
    · exact ⟨hr s, fun h => absurd rfl h⟩
    · split
      · next t sid hx =>
        have hc : ∀ r, (s.putTable ch t).callEp cfg env (some d.id) (.dialSucceeded d.id now) = r →
            r.1.readyDials = s.readyDials ∧ r.1.parked = s.parked := by
          rintro r rfl; exact ⟨rfl, rfl⟩
        split
        · next s2 st hx2 => exact ⟨(hc _ hx2).1, fun _ => (hc _ hx2).2⟩
        · next s2 o _ hx2 =>
          have := hc _ hx2
          unfold Quic.useConn
          rw [retire_eq]
          exact ⟨this.1, fun _ => this.2⟩
      · next t o _ hx =>
        have fin : ∀ (cl : Bool) (r : Quic I Q × Attempted),
            r = (if cl = true then ((s.putTable ch t).retire cfg env d.id, { res := .retired, touched := [ch] })
            else if now < d.deadline then ((s.putTable ch t).repark X d now, { res := .reparked, touched := [ch] })
            else ((s.putTable ch t).retire cfg env d.id, { res := .retired, touched := [ch] })) →
            r.1.readyDials = s.readyDials ∧ (r.2.res ≠ .reparked → r.1.parked = s.parked) := by
          intro cl r hr'
          split at hr'
          · subst hr'; rw [retire_eq]; exact ⟨rfl, fun _ => rfl⟩
          · split at hr'
            · subst hr'; exact ⟨hr _, fun h => absurd rfl h⟩
            · subst hr'; rw [retire_eq]; exact ⟨rfl, fun _ => rfl⟩
        exact fin _ _ rfl

theorem processDial_parked (s : Quic I Q) (d : QDial A) (now : Nat) :
    (s.processDial cfg env X d now).1.readyDials = s.readyDials ∧
    ((s.processDial cfg env X d now).2.res ≠ .reparked → (s.processDial cfg env X d now).1.parked = s.parked) := by
  have ht : (s.takeEntry d).readyDials = s.readyDials ∧ (s.takeEntry d).parked = s.parked := by
    rw [takeEntry_eq]; exact ⟨rfl, rfl⟩
  unfold Quic.processDial
  dsimp only
  generalize s.takeEntry d = s0 at ht
  split
  · rw [retire_eq]; exact ⟨ht.1, fun _ => ht.2⟩
  · split
    · rw [retire_eq]; exact ⟨ht.1, fun _ => ht.2⟩
    · next p ch _ =>
      have := openDial_parked (cfg := cfg) (env := env) (X := X) { s0 with pool := p, stale := residue s0.stale ch } d ch now
      exact ⟨this.1.trans ht.1, fun h => (this.2 h).trans ht.2⟩

/-- Without a budget the loop over a peer's dials ends with a dial put back or with none left. -/
theorem bucketLoop_none (peer : A) (now : Nat) : ∀ (fuel : Nat) (s : Quic I Q) (pops : Nat) (b : BucketEnd), b.budget = none →
    (∀ l, s.parked.get? peer = some l → l.length ≤ fuel) →
    (s.bucketLoop cfg env X peer now fuel pops b).1.readyDials = s.readyDials ∧
    (s.bucketLoop cfg env X peer now fuel pops b).2.budget = none ∧
    (((s.bucketLoop cfg env X peer now fuel pops b).2.any = true ∧ (s.bucketLoop cfg env X peer now fuel pops b).2.last = true) ∨
      ∀ d rest, (s.bucketLoop cfg env X peer now fuel pops b).1.parked.get? peer ≠ some (d :: rest)) := by
  intro fuel
  induction fuel with
  | zero =>
    intro s pops b hb hl
    refine ⟨rfl, hb, .inr (fun d rest h => ?_)⟩
    have := hl _ h
    cases this
  | succ k ih =>
    intro s pops b hb hl
    unfold Quic.bucketLoop
    split
    · next d rest hp =>
      rw [if_neg (by rw [hb]; simp)]
      dsimp only
      have hd := processDial_parked (cfg := cfg) (env := env) (X := X) (s.popParked peer d rest) d now
      generalize (s.popParked peer d rest).processDial cfg env X d now = r at hd
      split
      · next hr => exact ⟨hd.1, by show b.budget.map _ = none; rw [hb]; rfl, .inl ⟨rfl, by simpa using hr⟩⟩
      · next hr =>
        have := ih r.1 pops (b := ⟨b.budget.map (· - 1), true, decide (r.2.res = .reparked), b.out.add ⟨r.2.minted, r.2.touched⟩⟩) (by show b.budget.map _ = none; rw [hb]; rfl) (by
          intro l h
          rw [hd.2 hr] at h
          change (s.parked.insert peer rest).get? peer = some l at h
          rw [get?_insert_self] at h
          cases h
          have := hl _ hp
          exact Nat.le_of_succ_le_succ this)
        exact ⟨this.1.trans hd.1, this.2⟩
    · next hno =>
      exact ⟨rfl, hb, .inr (fun d rest h => hno d rest h)⟩

theorem servicePeer_none (s : Quic I Q) (peer : A) (now : Nat) :
    (s.servicePeer cfg env X peer now none).1.readyDials = s.readyDials ∧ (s.servicePeer cfg env X peer now none).2.budget = none := by
  unfold Quic.servicePeer
  dsimp only
  have h := bucketLoop_none (cfg := cfg) (env := env) (X := X) peer now (match s.parked.get? peer with | some l => l.length | none => 0) s 0
    { budget := none, any := false, last := false } rfl (by intro l h; rw [h])
  generalize s.bucketLoop cfg env X peer now (match s.parked.get? peer with | some l => l.length | none => 0) 0
    { budget := none, any := false, last := false } = r at h
  obtain ⟨h1, h2, h3⟩ := h
  refine ⟨?_, h2⟩
  unfold Quic.bucketDone
  split
  · exact h1
  · exact h1
  · next d rest hp =>
    rcases h3 with ⟨ha, hb⟩ | h3
    · rw [ha, hb]; exact h1
    · exact absurd hp (h3 d rest)

theorem complete_rd (s : Quic I Q) (id : Nat) (ok : Bool) : (s.complete cfg env id ok).readyDials = s.readyDials := by
  unfold Quic.complete
  split
  · rfl
  · split <;> rfl
theorem freeSlot_rd (s : Quic I Q) (ch : Nat) : (s.freeSlot ch).readyDials = s.readyDials := by
  unfold Quic.freeSlot
  split <;> rfl
theorem unslot_rd (s : Quic I Q) (ch slot : Nat) : (s.unslot ch slot).readyDials = s.readyDials := by
  unfold Quic.unslot
  repeat' split
  all_goals rfl

theorem reapBridge_rd (s : Quic I Q) (id : Nat) (b : QBridge I A) (ch : Nat) (lost : Bool) :
    (s.reapBridge cfg env id b ch lost).readyDials = s.readyDials := by
  unfold Quic.reapBridge
  dsimp only
  rw [complete_rd]
  split
  · rw [freeSlot_rd]
    split
    · rfl
    · rw [unslot_rd]; rfl
  · split
    · rfl
    · rw [unslot_rd]; rfl

theorem pumpOne_rd (now : Nat) (s : Quic I Q) (id : Nat) : (s.pumpOne cfg env T now id).1.readyDials = s.readyDials := by
  have hd : ∀ (s : Quic I Q) (b : QBridge I A) (ch : Nat) , (s.drainReap cfg env T id b ch now false).readyDials = s.readyDials := by
    intro s b ch
    unfold Quic.drainReap
    dsimp only
    rw [reapBridge_rd]; rfl
  unfold Quic.pumpOne
  split
  · rfl
  · dsimp only
    unfold Quic.afterPump
    dsimp only
    split
    · rw [hd]; rfl
    · unfold Quic.afterDrain
      dsimp only
      split
      · rw [hd]; rfl
      · rfl

theorem pumpFold_rd (now : Nat) : ∀ (l : List Nat) (s : Quic I Q),
    (l.foldl (fun s id => (s.pumpOne cfg env T now id).1) s).readyDials = s.readyDials := by
  intro l
  induction l with
  | nil => intro s; rfl
  | cons x l ih => intro s; rw [List.foldl_cons, ih, pumpOne_rd]

theorem pumpAll_rd (now : Nat) (s : Quic I Q) : (s.pumpAll cfg env T now).readyDials = s.readyDials := by
  unfold Quic.pumpAll; rw [pumpFold_rd]

theorem readyLoop_rd (now : Nat) : ∀ (n : Nat) (s : Quic I Q) (conns : List Nat),
    (s.readyLoop cfg env T now n conns).1.readyDials = s.readyDials := by
  intro n
  induction n with
  | zero => intro s conns; rfl
  | succ n ih =>
    intro s conns
    unfold Quic.readyLoop
    split
    · rfl
    · dsimp only
      rw [ih, pumpOne_rd]

theorem enqueueAll_rd : ∀ (l : List Nat) (s : Quic I Q), (s.enqueueAll l).readyDials = s.readyDials := by
  intro l
  induction l with
  | nil => intro s; rfl
  | cons x l ih =>
    intro s
    refine (ih (s.enqueue x)).trans ?_
    unfold Quic.enqueue
    split
    · rfl
    · split <;> rfl

theorem freedPeer_none (now : Nat) (r : Quic I Q × Pass) (peer : A) (hb : r.2.dials = none) :
    (freedPeer cfg env X T now r peer).1.readyDials = r.1.readyDials ∧ (freedPeer cfg env X T now r peer).2.dials = none := by
  unfold Quic.freedPeer
  dsimp only
  rw [hb]
  have h := servicePeer_none (cfg := cfg) (env := env) (X := X) r.1 peer now
  refine ⟨?_, h.2⟩
  unfold Quic.drainReady
  dsimp only
  rw [readyLoop_rd, enqueueAll_rd]
  exact h.1

theorem freedFold_none (now : Nat) : ∀ (l : List A) (r : Quic I Q × Pass), r.2.dials = none →
    (l.foldl (freedPeer cfg env X T now) r).1.readyDials = r.1.readyDials ∧ (l.foldl (freedPeer cfg env X T now) r).2.dials = none := by
  intro l
  induction l with
  | nil => intro r h; exact ⟨rfl, h⟩
  | cons x l ih =>
    intro r h
    have h1 := freedPeer_none (cfg := cfg) (env := env) (X := X) (T := T) now r x h
    have h2 := ih _ h1.2
    exact ⟨h2.1.trans h1.1, h2.2⟩

theorem freedLoop_none (now : Nat) : ∀ (n : Nat) (r : Quic I Q × Pass), r.2.dials = none →
    (freedLoop cfg env X T now n r).1.readyDials = r.1.readyDials ∧
    ((freedLoop cfg env X T now n r).1.freed = [] ∨ (freedLoop cfg env X T now n r).1.capped = true) := by
  intro n
  induction n with
  | zero =>
    intro r h
    unfold Quic.freedLoop
    split
    · next he => exact ⟨rfl, .inl he⟩
    · exact ⟨rfl, .inr rfl⟩
  | succ n ih =>
    intro r h
    unfold Quic.freedLoop
    split
    · next he => exact ⟨rfl, .inl he⟩
    · have h1 := freedFold_none (cfg := cfg) (env := env) (X := X) (T := T) now r.1.freed ({ r.1 with freed := [] }, r.2) h
      have h2 := ih _ h1.2
      exact ⟨h2.1.trans h1.1, h2.2⟩

/-! ### What a tick leaves -/

/-- Nothing is left for later. -/
structure Clean (s : Quic I Q) : Prop where
  ready : s.ready = []
  readyDials : s.readyDials = []
  freed : s.freed = [] ∨ s.capped = true
  anchor : s.catchupAt = none

theorem reapConn_rest (s : Quic I Q) (ch : Nat) : (s.reapConn ch).1.readyDials = s.readyDials ∧ (s.reapConn ch).1.freed = s.freed ∧
    (s.reapConn ch).1.capped = s.capped := by
  unfold Quic.reapConn
  split <;> exact ⟨rfl, rfl, rfl⟩

theorem collectConn_rest (now : Nat) (s : Quic I Q) (ch : Nat) : (s.collectConn now ch).readyDials = s.readyDials ∧
    (s.collectConn now ch).freed = s.freed ∧ (s.collectConn now ch).capped = s.capped := by
  unfold Quic.collectConn
  split <;> exact ⟨rfl, rfl, rfl⟩

theorem fold_rest (f : Quic I Q → Nat → Quic I Q)
    (hf : ∀ s ch, (f s ch).readyDials = s.readyDials ∧ (f s ch).freed = s.freed ∧ (f s ch).capped = s.capped) :
    ∀ (l : List Nat) (s : Quic I Q), (l.foldl f s).readyDials = s.readyDials ∧ (l.foldl f s).freed = s.freed ∧
      (l.foldl f s).capped = s.capped := by
  intro l
  induction l with
  | nil => intro s; exact ⟨rfl, rfl, rfl⟩
  | cons x l ih =>
    intro s
    obtain ⟨h1, h2, h3⟩ := ih (f s x)
    obtain ⟨k1, k2, k3⟩ := hf s x
    exact ⟨h1.trans k1, h2.trans k2, h3.trans k3⟩

theorem finalize_clean (s : Quic I Q) (now : Nat) (h : s.readyDials = []) (hf : s.freed = [] ∨ s.capped = true) :
    Clean (s.finalize T now) := by
  unfold Quic.finalize
  dsimp only
  have h1 := fold_rest (fun s ch => (Quic.reapConn s ch).1) reapConn_rest (T.order s.tick s.table.conns.keys) { s with tick := s.tick + 1 }
  generalize List.foldl (fun s ch => (Quic.reapConn s ch).1) { s with tick := s.tick + 1 } (T.order s.tick s.table.conns.keys) = s1 at h1
  have h2 := fold_rest (Quic.collectConn now) (collectConn_rest now) (T.order s1.tick s1.table.conns.keys) { s1 with tick := s1.tick + 1 }
  refine ⟨rfl, ?_, ?_, rfl⟩
  · exact (h2.1.trans h1.1).trans h
  · rcases hf with hf | hf
    · exact .inl ((h2.2.1.trans h1.2.1).trans hf)
    · exact .inr ((h2.2.2.trans h1.2.2).trans hf)

theorem wrap_clean (s : Quic I Q) (now : Nat) (h : s.readyDials = []) :
    Clean (((s.pumpAll cfg env T now).serviceFreed cfg env X T now none none).1.finalize T now) := by
  unfold Quic.serviceFreed
  have h1 := freedLoop_none (cfg := cfg) (env := env) (X := X) (T := T) now (iterCap X) (s.pumpAll cfg env T now, { pumps := none, dials := none }) rfl
  exact finalize_clean _ now (h1.1.trans ((pumpAll_rd now s).trans h)) h1.2

theorem runTick_clean (s : Quic I Q) (now : Nat) : Clean (s.runTick cfg env X T now) := by
  unfold Quic.runTick
  exact wrap_clean _ now rfl

theorem flush_clean (s : Quic I Q) (now : Nat) : Clean (s.flush cfg env X T now) := by
  unfold Quic.flush
  dsimp only
  have key : ∀ (l : List A) (s : Quic I Q), (l.foldl (fun s p => (s.servicePeer cfg env X p now none).1) s).readyDials = s.readyDials := by
    intro l
    induction l with
    | nil => intro s; rfl
    | cons x l ih =>
      intro s
      rw [List.foldl_cons]
      exact (ih _).trans (servicePeer_none s x now).1
  exact wrap_clean _ now (key _ _)

/-! ### The anchor -/

/-- Work left for later has its anchor (the flag: unless the freed slots were given up on). -/
def Anchored (s : Quic I Q) : Prop := s.hasResidue = true → s.catchupAt ≠ none ∨ s.capped = true

theorem Clean.anchored {s : Quic I Q} (h : Clean s) : Anchored s := by
  intro hr
  rcases h.freed with hf | hf
  · unfold hasResidue at hr
    rw [h.ready, h.readyDials, hf] at hr
    cases hr
  · exact .inr hf

theorem reconcile_anchored (s : Quic I Q) (now : Nat) : Anchored (s.reconcileCatchup X now) := by
  unfold Quic.reconcileCatchup
  intro hr
  split at hr
  · next hn =>
    have hr : s.hasResidue = true := hr
    rw [hr] at hn; cases hn
  · next hn =>
    rw [if_neg hn]
    split
    · left; simp
    · next hc => exact .inl hc

theorem advance_anchored (s : Quic I Q) (now : Nat) : Anchored (s.advanceCatchup X now) := by
  unfold Quic.advanceCatchup
  intro hr
  have hr : s.hasResidue = true := hr
  left
  rw [hr]; simp

theorem Anchored.same {s s' : Quic I Q} (h : Anchored s) (h1 : s'.ready = s.ready) (h2 : s'.freed = s.freed) (h3 : s'.readyDials = s.readyDials)
    (h4 : s'.catchupAt = s.catchupAt) (h5 : s'.capped = s.capped) : Anchored s' := by
  unfold Anchored hasResidue
  rw [h1, h2, h3, h4, h5]
  exact h

theorem indexConn_rest (s : Quic I Q) (ch : Nat) (h : Anchored s) : Anchored (s.indexConn ch) := h.same rfl rfl rfl rfl rfl

theorem collectConn_anchored (s : Quic I Q) (now ch : Nat) (h : Anchored s) : Anchored (s.collectConn now ch) := by
  unfold Quic.collectConn
  split
  · exact h
  · exact h.same rfl rfl rfl rfl rfl

theorem purge_rest : ∀ (l : List (QDial A)) (s : Quic I Q),
    (l.foldl (purgeDial cfg env) s).ready = s.ready ∧ (l.foldl (purgeDial cfg env) s).freed = s.freed ∧
    (l.foldl (purgeDial cfg env) s).catchupAt = s.catchupAt ∧ (l.foldl (purgeDial cfg env) s).capped = s.capped := by
  intro l
  induction l with
  | nil => intro s; exact ⟨rfl, rfl, rfl, rfl⟩
  | cons d l ih =>
    intro s
    rw [List.foldl_cons]
    obtain ⟨h1, h2, h3, h4⟩ := ih (purgeDial cfg env s d)
    have : (purgeDial cfg env s d).ready = s.ready ∧ (purgeDial cfg env s d).freed = s.freed ∧
        (purgeDial cfg env s d).catchupAt = s.catchupAt ∧ (purgeDial cfg env s d).capped = s.capped := by
      unfold purgeDial
      rw [retire_eq, takeEntry_eq]
      exact ⟨rfl, rfl, rfl, rfl⟩
    exact ⟨h1.trans this.1, h2.trans this.2.1, h3.trans this.2.2.1, h4.trans this.2.2.2⟩

theorem leave_anchored (s : Quic I Q) (now : Nat) (f : Option Bytes) (h : Anchored s) : Anchored (s.leave cfg env T now f) := by
  unfold Quic.leave
  dsimp only
  split
  · exact h.same rfl rfl rfl rfl rfl
  · unfold Quic.purgeDials
    dsimp only
    have h0 : ∀ s0 : Quic I Q, s0 = (({ s with lastNow := some now }.callEp cfg env none (.leave now f)).1.takeDials) →
        s0.ready = s.ready ∧ s0.freed = s.freed ∧ s0.catchupAt = s.catchupAt ∧ s0.capped = s.capped := by
      rintro s0 rfl; exact ⟨rfl, rfl, rfl, rfl⟩
    generalize hs0 : ({ s with lastNow := some now }.callEp cfg env none (.leave now f)).1.takeDials = s0
    have h0 := h0 s0 hs0.symm
    have h1 := purge_rest (cfg := cfg) (env := env) s0.hand s0
    have h2 : ((s0.hand.foldl (purgeDial cfg env) s0).takeParked T).ready = s0.ready ∧
        ((s0.hand.foldl (purgeDial cfg env) s0).takeParked T).freed = s0.freed ∧
        ((s0.hand.foldl (purgeDial cfg env) s0).takeParked T).catchupAt = s0.catchupAt ∧
        ((s0.hand.foldl (purgeDial cfg env) s0).takeParked T).capped = s0.capped := h1
    generalize (s0.hand.foldl (purgeDial cfg env) s0).takeParked T = s1 at h2
    have h3 := purge_rest (cfg := cfg) (env := env) s1.hand s1
    intro hr
    have k4 : (s1.hand.foldl (purgeDial cfg env) s1).catchupAt = s.catchupAt := (h3.2.2.1.trans h2.2.2.1).trans h0.2.2.1
    have k5 : (s1.hand.foldl (purgeDial cfg env) s1).capped = s.capped := (h3.2.2.2.trans h2.2.2.2).trans h0.2.2.2
    have k1 : (s1.hand.foldl (purgeDial cfg env) s1).ready = s.ready := (h3.1.trans h2.1).trans h0.1
    have k2 : (s1.hand.foldl (purgeDial cfg env) s1).freed = s.freed := (h3.2.1.trans h2.2.1).trans h0.2.1
    show (s1.hand.foldl (purgeDial cfg env) s1).catchupAt ≠ none ∨ (s1.hand.foldl (purgeDial cfg env) s1).capped = true
    rw [k4, k5]
    apply h
    unfold hasResidue at hr ⊢
    change (!(s1.hand.foldl (purgeDial cfg env) s1).ready.isEmpty || !(s1.hand.foldl (purgeDial cfg env) s1).freed.isEmpty || !([] : List A).isEmpty) = true at hr
    rw [k1, k2] at hr
    simp only [Bool.or_eq_true] at hr ⊢
    rcases hr with (hr | hr) | hr
    · exact .inl (.inl hr)
    · exact .inl (.inr hr)
    · cases hr

theorem pollEventLoop_anchored : ∀ (fuel : Nat) (s : Quic I Q), Anchored s → Anchored (s.pollEventLoop cfg env fuel).1 := by
  intro fuel
  induction fuel with
  | zero => intro s h; exact h
  | succ k ih =>
    intro s h
    simp only [Quic.pollEventLoop]
    split
    · exact h.same rfl rfl rfl rfl rfl
    · apply ih
      rw [queueDial_eq]
      exact h.same rfl rfl rfl rfl rfl
    · exact h.same rfl rfl rfl rfl rfl

theorem timeout_anchored (s : Quic I Q) (now : Nat) (h : Anchored s) : Anchored (s.timeout cfg env X T now) := by
  unfold Quic.timeout Quic.wake
  dsimp only
  split
  · exact (runTick_clean _ now).anchored
  · split
    · unfold Quic.between
      dsimp only
      have h0 : Anchored ({ s with lastNow := some now } : Quic I Q).refresh := h.same rfl rfl rfl rfl rfl
      generalize ({ s with lastNow := some now } : Quic I Q).refresh = s0 at h0
      split
      · exact reconcile_anchored _ now
      · split
        · exact advance_anchored _ now
        · exact h0
    · exact (runTick_clean _ now).anchored

theorem step_anchored (s : Quic I Q) (op : QOp I A) (h : Anchored s) : Anchored (s.step cfg env X T op).1 := by
  have started : ∀ (s : Quic I Q) (d : QDial A) (now : Nat), Anchored (s.serviceStarted cfg env X T d now) := by
    intro s d now
    unfold Quic.serviceStarted
    exact reconcile_anchored _ now
  cases op with
  | udp src bytes now =>
    show Anchored (s.udp cfg env X T src bytes now)
    unfold Quic.udp
    dsimp only
    split
    · split
      · exact h.same rfl rfl rfl rfl rfl
      · unfold Quic.serviceConnection
        exact reconcile_anchored _ now
    · unfold Quic.pushIngress
      split <;> exact h.same rfl rfl rfl rfl rfl
    · exact h.same rfl rfl rfl rfl rfl
  | timeout now => exact timeout_anchored s now h
  | flush now => exact (flush_clean s now).anchored
  | startPushPull peer kind now =>
    show Anchored (s.startPushPull cfg env X T peer kind now).1
    unfold Quic.startPushPull
    dsimp only
    split
    · exact started _ _ _
    · exact h.same rfl rfl rfl rfl rfl
  | startReliablePing pid peer seq d now =>
    show Anchored (s.startReliablePing cfg env X T pid peer seq d now).1
    unfold Quic.startReliablePing
    dsimp only
    split
    · exact started _ _ _
    · exact h.same rfl rfl rfl rfl rfl
  | startUserMessage peer payload now =>
    show Anchored (s.startUserMessage cfg env X T peer payload now).1
    unfold Quic.startUserMessage
    dsimp only
    split
    · exact h
    · split
      · exact h.same rfl rfl rfl rfl rfl
      · exact started _ _ _
  | leave now f => exact leave_anchored s now f h
  | setEncryption r =>
    show Anchored (s.setEncryption r)
    unfold setEncryption
    split
    · exact h
    · exact h.same rfl rfl rfl rfl rfl
  | setCompression c => exact h.same rfl rfl rfl rfl rfl
  | queueDatagram peer bytes now =>
    show Anchored (s.queueDatagram X peer bytes now).1
    unfold Quic.queueDatagram
    split
    · exact h.same rfl rfl rfl rfl rfl
    · dsimp only
      split
      · exact collectConn_anchored _ _ _ (h.same rfl rfl rfl rfl rfl)
      · exact collectConn_anchored _ _ _ (h.same rfl rfl rfl rfl rfl)
  | openUni peer now =>
    show Anchored (s.openUni peer now).1
    unfold Quic.openUni
    dsimp only
    split
    · exact h.same rfl rfl rfl rfl rfl
    · split
      · exact h.same rfl rfl rfl rfl rfl
      · exact h.same rfl rfl rfl rfl rfl
  | pollTransmit =>
    show Anchored s.pollTransmit.1
    unfold pollTransmit
    split
    · exact h
    · exact h.same rfl rfl rfl rfl rfl
  | pollIngress =>
    show Anchored s.pollIngress.1
    unfold pollIngress
    split
    · exact h
    · exact h.same rfl rfl rfl rfl rfl
  | pollEvent => exact pollEventLoop_anchored _ s h
  | pollTimeout => exact h.same rfl rfl rfl rfl rfl
  | direct d => exact h.same rfl rfl rfl rfl rfl

theorem run_anchored (ops : List (QOp I A)) : ∀ (s : Quic I Q), Anchored s → Anchored (s.run cfg env X T ops) := by
  induction ops with
  | nil => intro s h; exact h
  | cons op ops ih => intro s h; exact ih _ (step_anchored s op h)

end Verif.Quic
