import Verif.Proof.QuicAll
import Verif.Proof.QuicKept
import Verif.Proof.Deadline
/-
The timers of the QUIC node: every exchange and every connection has its timer in the index, except those being
worked on, and nothing else has one.
-/
namespace Verif.Quic
open Verif Map QBridge
variable {I A : Type} [DecidableEq I] [DecidableEq A] {Q : Quinn A}
variable {cfg : Cfg I A} {env : Env I A} {X : QCfg} {T : TEnv}

/-- The timers of exchanges and connections. `L` are the exchanges and `S` the connections whose timer has to be
read again, `P` the exchanges just taken from the queue. -/
structure Clock (L S P : Nat → Prop) (s : Quic I Q) : Prop where
  wf : DeadlineIndex.Inv s.index
  lone : ∀ id, s.bridges.get? id = none → s.index.deadlineOf (.bridge id) = none
  bridge : ∀ id b, ¬ L id → s.bridges.get? id = some b → b.queued = true ∨ s.index.deadlineOf (.bridge id) = b.pollTimeout
  bare : ∀ ch, s.pool.table.conns.get? ch = none → s.index.deadlineOf (.conn ch) = none
  conn : ∀ ch e, ¬ S ch → s.pool.table.conns.get? ch = some e → s.index.deadlineOf (.conn ch) = Q.pollTimeout e.conn
  queued : ∀ id b, ¬ P id → s.bridges.get? id = some b → b.queued = true → id ∈ s.ready

/-- One more. -/
def plus (S : Nat → Prop) (x : Nat) : Nat → Prop := fun c => S c ∨ c = x
/-- Several more. -/
def plusL (S : Nat → Prop) (l : List Nat) : Nat → Prop := fun c => S c ∨ c ∈ l

section
variable {L S P : Nat → Prop} {s s' : Quic I Q}

theorem Clock.congr (h : Clock L S P s) (hi : s'.index = s.index := by rfl) (hb : s'.bridges = s.bridges := by rfl)
    (hc : s'.pool.table.conns = s.pool.table.conns := by rfl) (hr : s'.ready = s.ready := by rfl) : Clock L S P s' :=
  ⟨by rw [hi]; exact h.wf, by rw [hi, hb]; exact h.lone, by rw [hi, hb]; exact h.bridge, by rw [hi, hc]; exact h.bare,
   by rw [hi, hc]; exact h.conn, by rw [hb, hr]; exact h.queued⟩

theorem Clock.mono {L' S' P' : Nat → Prop} (h : Clock L S P s) (hL : ∀ x, L x → L' x) (hS : ∀ x, S x → S' x)
    (hP : ∀ x, P x → P' x) : Clock L' S' P' s :=
  ⟨h.wf, h.lone, fun id b hn => h.bridge id b (fun hl => hn (hL _ hl)), h.bare,
   fun ch e hn => h.conn ch e (fun hl => hn (hS _ hl)), fun id b hn => h.queued id b (fun hl => hn (hP _ hl))⟩

theorem Clock.weakS {S' : Nat → Prop} (h : Clock L S P s) (hS : ∀ x, S x → S' x) : Clock L S' P s :=
  h.mono (fun _ h => h) hS (fun _ h => h)
theorem Clock.weakL {L' : Nat → Prop} (h : Clock L S P s) (hL : ∀ x, L x → L' x) : Clock L' S P s :=
  h.mono hL (fun _ h => h) (fun _ h => h)

/-- A timer of another kind. -/
theorem Clock.timer (h : Clock L S P s) (k : TimerKey) (d : Option Nat) (hb : ∀ id, k ≠ .bridge id) (hc : ∀ ch, k ≠ .conn ch) :
    Clock L S P (s.setTimer k d) := by
  refine ⟨DeadlineIndex.inv_set h.wf k d, fun id hid => ?_, fun id b hl hid => ?_, fun ch hch => ?_, fun ch e hs hch => ?_, h.queued⟩
  · show (s.index.set k d).deadlineOf _ = _
    rw [DeadlineIndex.deadlineOf_set, if_neg (hb id)]; exact h.lone id hid
  · show _ ∨ (s.index.set k d).deadlineOf _ = _
    rw [DeadlineIndex.deadlineOf_set, if_neg (hb id)]; exact h.bridge id b hl hid
  · show (s.index.set k d).deadlineOf _ = _
    rw [DeadlineIndex.deadlineOf_set, if_neg (hc ch)]; exact h.bare ch hch
  · show (s.index.set k d).deadlineOf _ = _
    rw [DeadlineIndex.deadlineOf_set, if_neg (hc ch)]; exact h.conn ch e hs hch

/-- A connection in use. -/
theorem Clock.table {ch : Nat} {t : ConnTable Q.C Q.V A} (h : Clock L S P s) (ho : Only ch s.pool.table t) (hS : S ch)
    (hi : s'.index = s.index := by rfl) (hb : s'.bridges = s.bridges := by rfl)
    (hc : s'.pool.table.conns = t.conns := by rfl) (hr : s'.ready = s.ready := by rfl) : Clock L S P s' := by
  refine ⟨by rw [hi]; exact h.wf, by rw [hi, hb]; exact h.lone, by rw [hi, hb]; exact h.bridge, ?_, ?_, by rw [hb, hr]; exact h.queued⟩
  · intro c hn
    rw [hc] at hn
    rw [hi]
    apply h.bare
    by_cases hcc : c = ch
    · subst hcc; exact ho.2.1 hn
    · rw [← ho.1 c hcc]; exact hn
  · intro c e hs hn
    rw [hc] at hn
    have hcc : c ≠ ch := by rintro rfl; exact hs hS
    rw [ho.1 c hcc] at hn
    rw [hi]; exact h.conn c e hs hn

/-- A bridge is replaced while its timer is out of date. -/
theorem Clock.tweak (h : Clock L S P s) {id : Nat} {b : QBridge I A} (hL : L id) (hq : b.queued = true → ¬ P id → id ∈ s.ready) :
    Clock L S P (s.tweak id b) := by
  refine ⟨h.wf, fun x hx => ?_, fun x b' hl hx => ?_, h.bare, h.conn, fun x b' hp hx hb' => ?_⟩
  · change (s.bridges.insert id b).get? x = none at hx
    rw [get?_insert] at hx
    split at hx
    · cases hx
    · exact h.lone x hx
  · change (s.bridges.insert id b).get? x = some b' at hx
    rw [get?_insert] at hx
    split at hx
    · next hxx => subst hxx; exact absurd hL hl
    · exact h.bridge x b' hl hx
  · change (s.bridges.insert id b).get? x = some b' at hx
    rw [get?_insert] at hx
    split at hx
    · next hxx => subst hxx; cases hx; exact hq hb' hp
    · exact h.queued x b' hp hx hb'

theorem Clock.enqueue {id : Nat} (h : Clock (plus L id) S P s) : Clock L S P (s.enqueue id) := by
  unfold Quic.enqueue
  split
  · next hn =>
    refine ⟨h.wf, h.lone, fun x b hl hx => ?_, h.bare, h.conn, h.queued⟩
    refine h.bridge x b ?_ hx
    rintro (hl' | rfl)
    · exact hl hl'
    · rw [hn] at hx; cases hx
  · next b hb =>
    split
    · next hq =>
      refine ⟨h.wf, h.lone, fun x b' hl hx => ?_, h.bare, h.conn, h.queued⟩
      by_cases hxx : x = id
      · subst hxx
        have : some b = some b' := hb.symm.trans hx
        cases this; exact .inl hq
      · exact h.bridge x b' (by rintro (hl' | he); exacts [hl hl', hxx he]) hx
    · refine ⟨h.wf, fun x hx => ?_, fun x b' hl hx => ?_, h.bare, h.conn, fun x b' hp hx hb' => ?_⟩
      · change (s.bridges.insert id _).get? x = none at hx
        rw [get?_insert] at hx
        split at hx
        · cases hx
        · exact h.lone x hx
      · change (s.bridges.insert id _).get? x = some b' at hx
        rw [get?_insert] at hx
        split at hx
        · cases hx; exact .inl rfl
        · next hxx => exact h.bridge x b' (by rintro (hl' | he); exacts [hl hl', hxx he.symm]) hx
      · change (s.bridges.insert id _).get? x = some b' at hx
        show x ∈ s.ready ++ [id]
        rw [get?_insert] at hx
        split at hx
        · next hxx => subst hxx; simp
        · exact List.mem_append_left _ (h.queued x b' hp hx hb')

theorem Clock.enqueueAll {l : List Nat} : ∀ {s : Quic I Q}, Clock (plusL L l) S P s → Clock L S P (s.enqueueAll l) := by
  induction l with
  | nil => intro s h; exact h.weakL (by rintro x (h | h); exacts [h, by cases h])
  | cons x l ih =>
    intro s h
    show Clock L S P ((s.enqueue x).enqueueAll l)
    apply ih
    apply Clock.enqueue
    refine h.weakL ?_
    rintro y (h | h)
    · exact .inl (.inl h)
    · rcases List.mem_cons.1 h with h | h
      · exact .inr h
      · exact .inl (.inr h)

theorem Clock.openBridge (h : Clock L S P s) (st : Stream I A) (ch sid : Nat) (eager : Bool) :
    Clock (plus L st.id) S P (s.openBridge cfg X st ch sid eager) := by
  have h1 := (h.weakL (L' := plus L st.id) (fun _ => .inl)).tweak (id := st.id)
    (b := { QBridge.new st ch sid s.cmp cfg.maxStreamFrameSize X.label X.skipLabel eager with
             slot := (match s.byConn.get? ch with | some l => l | none => []).length }) (.inr rfl) (by intro hq; cases hq)
  exact h1.congr

/-! ### Connections -/

theorem Clock.indexConn {ch : Nat} (h : Clock L (plus S ch) P s) : Clock L S P (s.indexConn ch) := by
  have ho : Only ch s.pool.table (s.table.on Q ch (fun e => (e.touch Q, ()))).1 := on_only _ _ _
  have h1 : Clock L (plus S ch) P { s with pool := { s.pool with table := (s.table.on Q ch (fun e => (e.touch Q, ()))).1 } } :=
    h.table ho (.inr rfl)
  unfold Quic.indexConn
  dsimp only
  generalize (s.table.on Q ch (fun e => (e.touch Q, ()))).1 = t at h1
  refine ⟨DeadlineIndex.inv_set h1.wf _ _, fun id hid => ?_, fun id b hl hid => ?_, fun c hc => ?_, fun c e hs hc => ?_, h1.queued⟩
  · show (s.index.set _ _).deadlineOf _ = _
    rw [DeadlineIndex.deadlineOf_set, if_neg (by intro hx; cases hx)]; exact h1.lone id hid
  · show _ ∨ (s.index.set _ _).deadlineOf _ = _
    rw [DeadlineIndex.deadlineOf_set, if_neg (by intro hx; cases hx)]; exact h1.bridge id b hl hid
  · show (s.index.set _ _).deadlineOf _ = _
    rw [DeadlineIndex.deadlineOf_set]
    split
    · next hx => cases hx; rw [show t.conns.get? ch = none from hc]; rfl
    · exact h1.bare c hc
  · show (s.index.set _ _).deadlineOf _ = _
    rw [DeadlineIndex.deadlineOf_set]
    split
    · next hx => cases hx; rw [show t.conns.get? ch = some e from hc]; rfl
    · next hx => exact h1.conn c e (by rintro (h | rfl); exacts [hs h, hx rfl]) hc

/-- The timers of connections that are not there do not matter. -/
theorem Clock.narrow {S' : Nat → Prop} (h : Clock L S P s) (hS : ∀ c, S c → S' c ∨ s.pool.table.conns.get? c = none) :
    Clock L S' P s := by
  refine ⟨h.wf, h.lone, h.bridge, h.bare, fun c e hs hc => h.conn c e ?_ hc, h.queued⟩
  intro hx
  rcases hS c hx with h | h
  · exact hs h
  · rw [h] at hc; cases hc

theorem Clock.collectConn {ch : Nat} (now : Nat) (h : Clock L (plus S ch) P s) : Clock L S P (s.collectConn now ch) := by
  unfold Quic.collectConn
  have ho := on_only s.table ch (fun e => e.via Q (fun c => transmitLoop Q now Q.fuel c []))
  split
  · next t hx =>
    refine h.narrow ?_
    rintro c (h | rfl)
    · exact .inl h
    · right
      revert hx
      unfold ConnTable.on Quic.table
      cases s.pool.table.conns.get? c with
      | none => intro _; rfl
      | some e => intro hx; cases hx
  · next t out hx =>
    rw [hx] at ho
    apply Clock.indexConn
    exact h.table ho (.inr rfl)

theorem Clock.collect (now : Nat) {l : List Nat} : ∀ {s : Quic I Q}, Clock L (plusL S l) P s → Clock L S P (s.collect now l) := by
  induction l with
  | nil => intro s h; exact h.weakS (by rintro x (h | h); exacts [h, by cases h])
  | cons x l ih =>
    intro s h
    show Clock L S P ((s.collectConn now x).collect now l)
    apply ih
    apply Clock.collectConn
    refine h.weakS ?_
    rintro y (h | h)
    · exact .inl (.inl h)
    · rcases List.mem_cons.1 h with h | h
      · exact .inr h
      · exact .inl (.inr h)

theorem Clock.collectAll (now : Nat) (h : Clock L S P s) :
    Clock L (fun _ => False) P (s.collectAll T now) := by
  unfold Quic.collectAll
  apply Clock.collect
  refine Clock.narrow (S := S) (h.congr) ?_
  intro c _
  by_cases hc : c ∈ s.table.conns.keys
  · exact .inl (.inr ((T.order_perm _ _).mem_iff.2 hc))
  · exact .inr (get?_eq_none_iff.2 hc)

theorem Clock.reapConn (ch : Nat) (h : Clock L S P s) : Clock L S P (s.reapConn ch).1 := by
  unfold Quic.reapConn ConnTable.reapIfDrained Quic.table
  cases he : s.pool.table.conns.get? ch with
  | none => exact h
  | some e =>
    dsimp only
    split
    · next hx => split at hx <;> first | exact h | cases hx
    · next t q hx =>
      split at hx
      · cases hx
      · cases hx
        refine ⟨?_, fun id hid => ?_, fun id b hl hid => ?_, fun c hc => ?_, fun c e hs hc => ?_, h.queued⟩
        · exact DeadlineIndex.inv_set h.wf (.conn ch) none
        · show (s.index.set _ _).deadlineOf _ = _
          rw [DeadlineIndex.deadlineOf_set, if_neg (by intro hx; cases hx)]; exact h.lone id hid
        · show _ ∨ (s.index.set _ _).deadlineOf _ = _
          rw [DeadlineIndex.deadlineOf_set, if_neg (by intro hx; cases hx)]; exact h.bridge id b hl hid
        · show (s.index.set _ _).deadlineOf _ = _
          rw [DeadlineIndex.deadlineOf_set]
          split
          · rfl
          · next hx =>
            change (s.pool.table.conns.erase ch).get? c = none at hc
            rw [get?_erase, if_neg (by rintro rfl; exact hx rfl)] at hc
            exact h.bare c hc
        · show (s.index.set _ _).deadlineOf _ = _
          change (s.pool.table.conns.erase ch).get? c = some e at hc
          rw [get?_erase] at hc
          split at hc
          · cases hc
          · next hx =>
            rw [DeadlineIndex.deadlineOf_set, if_neg (by intro hy; cases hy; exact hx rfl)]
            exact h.conn c e hs hc
end
end Verif.Quic
