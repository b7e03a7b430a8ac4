import Verif.Proof.QuicOverdue3
import Verif.Spec.QuicTime
/-
Dials that ran out: a tick leaves none.
-/
namespace Verif.Quic
open Verif Map QBridge
variable {I A : Type} [DecidableEq I] [DecidableEq A] {Q : Quinn A}
variable {cfg : Cfg I A} {env : Env I A} {X : QCfg} {T : TEnv} {now : Nat}

/-- The deadline of every dial put back is yet to come. -/
def Young (now : Nat) (s : Quic I Q) : Prop := ∀ p l, s.parked.get? p = some l → ∀ d ∈ l, now < d.deadline

theorem Young.same {s s' : Quic I Q} (h : Young now s) (hp : s'.parked = s.parked) : Young now s' := by
  unfold Young; rw [hp]; exact h

theorem Young.repark {s : Quic I Q} (h : Young now s) {d : QDial A} (hd : now < d.deadline) : Young now (s.repark X d now) := by
  obtain ⟨w, hw⟩ := repark_eq (X := X) s d now
  rw [hw]
  intro p l hp d' hd'
  change (s.parked.insert _ _).get? p = some l at hp
  rw [get?_insert] at hp
  have hb : ∀ e ∈ bucketOf s d.peer, now < e.deadline := by
    intro e he
    unfold bucketOf at he
    split at he
    · next l0 h0 => exact h _ _ h0 e he
    · cases he
  split at hp
  · cases hp
    split at hd'
    · rcases List.mem_cons.1 hd' with rfl | hd'
      · exact hd
      · exact hb _ hd'
    · rcases List.mem_append.1 hd' with hd' | hd'
      · exact hb _ hd'
      · rw [List.mem_singleton] at hd'; subst hd'; exact hd
  · exact h p l hp d' hd'

theorem repark_dials (s : Quic I Q) (d : QDial A) : (s.repark X d now).dials = s.dials := by
  obtain ⟨w, hw⟩ := repark_eq (X := X) s d now
  rw [hw]

theorem openDial_young {s : Quic I Q} {d : QDial A} (ch : Nat) (hd : now < d.deadline) (h : Young now s) :
    Young now (s.openDial cfg env X d ch now).1 ∧ (s.openDial cfg env X d ch now).1.dials = s.dials := by
  unfold Quic.openDial
  split
  · exact ⟨h.same rfl, rfl⟩
  · split
    · exact ⟨h.repark hd, repark_dials ..⟩
    · split
      · next t sid hx =>
        have hc : ∀ r, (s.putTable ch t).callEp cfg env (some d.id) (.dialSucceeded d.id now) = r →
            r.1.parked = s.parked ∧ r.1.dials = s.dials := by
          rintro r rfl; exact ⟨rfl, rfl⟩
        split
        · next s2 st hx2 => exact ⟨h.same (hc _ hx2).1, (hc _ hx2).2⟩
        · next s2 o _ hx2 =>
          unfold Quic.useConn
          rw [retire_eq]
          exact ⟨h.same (hc _ hx2).1, (hc _ hx2).2⟩
      · next t o _ hx =>
        have hp : Young now (s.putTable ch t) := h.same rfl
        have fin : ∀ cl : Bool,
            Young now (if cl = true then ((s.putTable ch t).retire cfg env d.id, ({ res := .retired, touched := [ch] } : Attempted))
            else ((s.putTable ch t).repark X d now, { res := .reparked, touched := [ch] })).1 ∧
            (if cl = true then ((s.putTable ch t).retire cfg env d.id, ({ res := .retired, touched := [ch] } : Attempted))
            else ((s.putTable ch t).repark X d now, { res := .reparked, touched := [ch] })).1.dials = s.dials := by
          intro cl
          split
          · rw [retire_eq]; exact ⟨h.same rfl, rfl⟩
          · exact ⟨hp.repark hd, repark_dials ..⟩
        exact fin _

theorem openDial_dials {s : Quic I Q} {d : QDial A} (ch : Nat) :
    (s.openDial cfg env X d ch now).1.dials = s.dials := by
  unfold Quic.openDial
  split
  · rfl
  · split
    · exact repark_dials ..
    · split
      · next t sid hx =>
        have hc : ∀ r, (s.putTable ch t).callEp cfg env (some d.id) (.dialSucceeded d.id now) = r → r.1.dials = s.dials := by
          rintro r rfl; rfl
        split
        · next s2 st hx2 => exact hc _ hx2
        · next s2 o _ hx2 =>
          unfold Quic.useConn
          rw [retire_eq]
          exact hc _ hx2
      · next t o _ hx =>
        have fin : ∀ cl : Bool,
            (if cl = true then ((s.putTable ch t).retire cfg env d.id, ({ res := .retired, touched := [ch] } : Attempted))
            else if now < d.deadline then ((s.putTable ch t).repark X d now, { res := .reparked, touched := [ch] })
            else ((s.putTable ch t).retire cfg env d.id, { res := .retired, touched := [ch] })).1.dials = s.dials := by
          intro cl
          split
          · rw [retire_eq]; rfl
          · split
            · exact repark_dials ..
            · rw [retire_eq]; rfl
        exact fin _

theorem processDial_young {s : Quic I Q} (d : QDial A) (h : Young now s) :
    Young now (s.processDial cfg env X d now).1 ∧ (s.processDial cfg env X d now).1.dials = s.dials := by
  have ht : (s.takeEntry d).parked = s.parked ∧ (s.takeEntry d).dials = s.dials := by rw [takeEntry_eq]; exact ⟨rfl, rfl⟩
  unfold Quic.processDial
  dsimp only
  generalize s.takeEntry d = s0 at ht
  split
  · rw [retire_eq]; exact ⟨h.same ht.1, ht.2⟩
  · next hn =>
    split
    · rw [retire_eq]; exact ⟨h.same ht.1, ht.2⟩
    · next p ch _ =>
      have := openDial_young (cfg := cfg) (env := env) (X := X) (s := { s0 with pool := p, stale := residue s0.stale ch }) (d := d) ch
        (Nat.lt_of_not_le hn) (h.same ht.1)
      exact ⟨this.1, this.2.trans ht.2⟩

theorem processDial_dials (s : Quic I Q) (d : QDial A) : (s.processDial cfg env X d now).1.dials = s.dials := by
  have ht : (s.takeEntry d).dials = s.dials := by rw [takeEntry_eq]
  unfold Quic.processDial
  dsimp only
  generalize s.takeEntry d = s0 at ht
  split
  · rw [retire_eq]; exact ht
  · split
    · rw [retire_eq]; exact ht
    · exact (openDial_dials _).trans ht

theorem processAll_dials : ∀ (l : List (QDial A)) (s : Quic I Q), (s.processAll cfg env X now l).1.dials = s.dials := by
  intro l
  induction l with
  | nil => intro s; rfl
  | cons d l ih => intro s; exact (ih _).trans (processDial_dials s d)

theorem processAll_young : ∀ (l : List (QDial A)) {s : Quic I Q}, Young now s → Young now (s.processAll cfg env X now l).1 := by
  intro l
  induction l with
  | nil => intro s h; exact h
  | cons d l ih => intro s h; exact ih (processDial_young d h).1

theorem serviceDials_young (s : Quic I Q) : Young now (s.serviceDials cfg env X T now).1 ∧ (s.serviceDials cfg env X T now).1.dials = [] := by
  unfold Quic.serviceDials
  dsimp only
  constructor
  · apply processAll_young
    intro p l h; cases h
  · rw [processAll_dials]
    exact (processAll_dials ..).trans rfl

theorem bucketLoop_young (peer : A) : ∀ (fuel : Nat) {s : Quic I Q} (pops : Nat) (b : BucketEnd), Young now s →
    Young now (s.bucketLoop cfg env X peer now fuel pops b).1 ∧ (s.bucketLoop cfg env X peer now fuel pops b).1.dials = s.dials := by
  intro fuel
  induction fuel with
  | zero => intro s pops b h; exact ⟨h, rfl⟩
  | succ k ih =>
    intro s pops b h
    unfold Quic.bucketLoop
    split
    · next d rest hp =>
      have h0 : Young now (s.popParked peer d rest) := by
        intro p l hl e he
        change (s.parked.insert peer rest).get? p = some l at hl
        rw [get?_insert] at hl
        split at hl
        · cases hl; exact h _ _ hp e (List.mem_cons_of_mem _ he)
        · exact h p l hl e he
      have h1 := processDial_young (cfg := cfg) (env := env) (X := X) d h0
      generalize (s.popParked peer d rest).processDial cfg env X d now = r at h1
      have h2 : ∀ p b, Young now (bucketLoop cfg env X peer now k r.1 p b).1 ∧ (bucketLoop cfg env X peer now k r.1 p b).1.dials = s.dials :=
        fun p b => ⟨(ih p b h1.1).1, (ih p b h1.1).2.trans h1.2⟩
      split
      · split
        · exact ⟨h, rfl⟩
        · dsimp only
          split
          · exact h1
          · exact h2 _ _
      · dsimp only
        split
        · exact h1
        · exact h2 _ _
    · exact ⟨h, rfl⟩

theorem bucketDone_young {s : Quic I Q} (peer : A) (b : BucketEnd) (h : Young now s) : Young now (s.bucketDone X peer now b) ∧
    (s.bucketDone X peer now b).dials = s.dials := by
  unfold Quic.bucketDone
  split
  · exact ⟨h, rfl⟩
  · refine ⟨fun p l hl => ?_, rfl⟩
    change (s.parked.erase peer).get? p = some l at hl
    rw [get?_erase] at hl
    split at hl
    · cases hl
    · exact h p l hl
  · split
    · exact ⟨h.same rfl, rfl⟩
    · exact ⟨h, rfl⟩

theorem pumpOne_young (s : Quic I Q) (id : Nat) : (s.pumpOne cfg env T now id).1.parked = s.parked ∧
    (s.pumpOne cfg env T now id).1.dials = s.dials := by
  have hd : ∀ (s : Quic I Q) (b : QBridge I A) (ch : Nat), (s.drainReap cfg env T id b ch now false).parked = s.parked ∧
      (s.drainReap cfg env T id b ch now false).dials = s.dials := by
    intro s b ch
    unfold Quic.drainReap
    dsimp only
    have := reapBridge_apart (cfg := cfg) (env := env) (s.putDrain id (QBridge.drainThenReap cfg env T Q s.cmp s.ep s.table b now)) id
      (QBridge.drainThenReap cfg env T Q s.cmp s.ep s.table b now).2.1 ch false
    exact ⟨this.parked, this.dials⟩
  unfold Quic.pumpOne
  split
  · exact ⟨rfl, rfl⟩
  · dsimp only
    unfold Quic.afterPump
    dsimp only
    split
    · exact hd _ _ _
    · unfold Quic.afterDrain
      dsimp only
      split
      · exact hd _ _ _
      · exact ⟨rfl, rfl⟩

/-- Nothing that ran out waits. -/
def Fresh (now : Nat) (s : Quic I Q) : Prop := Young now s ∧ s.dials = []

theorem Fresh.same {s s' : Quic I Q} (h : Fresh now s) (hp : s'.parked = s.parked) (hd : s'.dials = s.dials) : Fresh now s' :=
  ⟨h.1.same hp, hd.trans h.2⟩

theorem pumpFold_fresh : ∀ (l : List Nat) {s : Quic I Q}, Fresh now s →
    Fresh now (l.foldl (fun s id => (s.pumpOne cfg env T now id).1) s) := by
  intro l
  induction l with
  | nil => intro s h; exact h
  | cons x l ih =>
    intro s h
    have := pumpOne_young (cfg := cfg) (env := env) (T := T) (now := now) s x
    exact ih (h.same this.1 this.2)

theorem readyLoop_fresh : ∀ (n : Nat) {s : Quic I Q} (conns : List Nat), Fresh now s → Fresh now (s.readyLoop cfg env T now n conns).1 := by
  intro n
  induction n with
  | zero => intro s conns h; exact h
  | succ n ih =>
    intro s conns h
    unfold Quic.readyLoop
    split
    · exact h
    · next id rest _ =>
      have := pumpOne_young (cfg := cfg) (env := env) (T := T) (now := now) { s with ready := rest } id
      exact ih _ (h.same this.1 this.2)

theorem enqueueAll_fresh : ∀ (l : List Nat) {s : Quic I Q}, Fresh now s → Fresh now (s.enqueueAll l) := by
  intro l
  induction l with
  | nil => intro s h; exact h
  | cons x l ih =>
    intro s h
    refine ih (s := s.enqueue x) ?_
    unfold Quic.enqueue
    split
    · exact h
    · split
      · exact h
      · exact h.same rfl rfl

theorem servicePeer_fresh {s : Quic I Q} (peer : A) (budget : Option Nat) (h : Fresh now s) :
    Fresh now (s.servicePeer cfg env X peer now budget).1 := by
  unfold Quic.servicePeer
  dsimp only
  have h1 := bucketLoop_young (cfg := cfg) (env := env) (X := X) peer (match s.parked.get? peer with | some l => l.length | none => 0) 0
    { budget := budget, any := false, last := false } h.1
  have h2 := bucketDone_young (X := X) peer (s.bucketLoop cfg env X peer now (match s.parked.get? peer with | some l => l.length | none => 0) 0
    { budget := budget, any := false, last := false }).2 h1.1
  exact ⟨h2.1, (h2.2.trans h1.2).trans h.2⟩

theorem freedPeer_fresh {r : Quic I Q × Pass} (peer : A) (h : Fresh now r.1) :
    Fresh now (freedPeer cfg env X T now r peer).1 := by
  unfold Quic.freedPeer
  dsimp only
  unfold Quic.drainReady
  dsimp only
  exact readyLoop_fresh _ _ (enqueueAll_fresh _ (servicePeer_fresh peer _ h))

theorem freedFold_fresh : ∀ (l : List A) {r : Quic I Q × Pass}, Fresh now r.1 →
    Fresh now (l.foldl (freedPeer cfg env X T now) r).1 := by
  intro l
  induction l with
  | nil => intro r h; exact h
  | cons x l ih => intro r h; exact ih (freedPeer_fresh x h)

theorem freedLoop_fresh : ∀ (n : Nat) {r : Quic I Q × Pass}, Fresh now r.1 → Fresh now (freedLoop cfg env X T now n r).1 := by
  intro n
  induction n with
  | zero =>
    intro r h
    unfold Quic.freedLoop
    split
    · exact h
    · exact h.same rfl rfl
  | succ n ih =>
    intro r h
    unfold Quic.freedLoop
    split
    · exact h
    · exact ih (freedFold_fresh _ (r := ({ r.1 with freed := [] }, r.2)) (h.same rfl rfl))

theorem fold_same (f : Quic I Q → Nat → Quic I Q) (hf : ∀ s ch, (f s ch).parked = s.parked ∧ (f s ch).dials = s.dials) :
    ∀ (l : List Nat) (s : Quic I Q), (l.foldl f s).parked = s.parked ∧ (l.foldl f s).dials = s.dials := by
  intro l
  induction l with
  | nil => intro s; exact ⟨rfl, rfl⟩
  | cons x l ih =>
    intro s
    obtain ⟨h1, h2⟩ := ih (f s x)
    obtain ⟨k1, k2⟩ := hf s x
    exact ⟨h1.trans k1, h2.trans k2⟩

theorem finalize_fresh {s : Quic I Q} (h : Fresh now s) : Fresh now (s.finalize T now) := by
  unfold Quic.finalize
  dsimp only
  have h1 := fold_same (fun s ch => (Quic.reapConn s ch).1) (fun s ch => by unfold Quic.reapConn; split <;> exact ⟨rfl, rfl⟩)
    (T.order s.tick s.table.conns.keys) { s with tick := s.tick + 1 }
  generalize List.foldl (fun s ch => (Quic.reapConn s ch).1) { s with tick := s.tick + 1 } (T.order s.tick s.table.conns.keys) = s1 at h1
  have h2 := fold_same (Quic.collectConn now) (fun s ch => by unfold Quic.collectConn; split <;> exact ⟨rfl, rfl⟩)
    (T.order s1.tick s1.table.conns.keys) { s1 with tick := s1.tick + 1 }
  exact h.same (h2.1.trans h1.1) (h2.2.trans h1.2)

/-- After a tick no dial waits whose deadline is over. -/
theorem runTick_fresh (s : Quic I Q) : Fresh now (s.runTick cfg env X T now) := by
  unfold Quic.runTick
  dsimp only
  apply finalize_fresh
  unfold Quic.serviceFreed
  apply freedLoop_fresh
  dsimp only
  unfold Quic.pumpAll
  apply pumpFold_fresh
  have h := serviceDials_young (cfg := cfg) (env := env) (X := X) (T := T) (now := now)
    (((s.pumpAll cfg env T now).callEp cfg env none (.timeout now)).1.serviceQuinn cfg env X T now).1
  exact ⟨h.1.same rfl, h.2⟩

theorem Fresh.waiting {s : Quic I Q} (h : Fresh now s) (hn : s.parked.NodupKeys) : ∀ d ∈ Spec.waitingDials s, now < d.deadline := by
  intro d hd
  unfold Spec.waitingDials at hd
  rw [h.2, List.nil_append, List.mem_flatMap] at hd
  obtain ⟨e, he, hde⟩ := hd
  exact h.1 e.1 e.2 (get?_of_mem hn he) d hde

end Verif.Quic
