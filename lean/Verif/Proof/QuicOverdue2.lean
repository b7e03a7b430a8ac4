import Verif.Proof.QuicOverdue
/-
Exchanges that ran out: every exchange and its stream have the same deadline.
-/
namespace Verif.Quic
open Verif Map QBridge
variable {I A : Type} [DecidableEq I] [DecidableEq A] {Q : Quinn A}
variable {cfg : Cfg I A} {env : Env I A} {X : QCfg} {T : TEnv}

theorem complete_bridges (s : Quic I Q) (id : Nat) (ok : Bool) : (s.complete cfg env id ok).bridges = s.bridges := by
  unfold Quic.complete
  split
  · rfl
  · split <;> rfl

/-- Reaping an exchange leaves the others as they are, but for their places. -/
theorem reapBridge_get {s : Quic I Q} {id : Nat} {b : QBridge I A} {ch : Nat} {lost : Bool} {x : Nat} {b' : QBridge I A}
    (h : (s.reapBridge cfg env id b ch lost).bridges.get? x = some b') :
    x ≠ id ∧ ∃ b0 k, s.bridges.get? x = some b0 ∧ b' = { b0 with slot := k } := by
  rw [reapBridge_pre, complete_bridges] at h
  obtain ⟨k, hk⟩ := (preReap_rest (X := ⟨⟨none, none⟩, none, 0, 0, 0, 0, none, false⟩) s id b ch lost).2.2.2.2.2.1 x
  rw [hk, get?_erase] at h
  split at h
  · cases h
  · next hne =>
    cases hx : s.bridges.get? x with
    | none => rw [hx] at h; cases h
    | some b0 =>
      rw [hx] at h
      cases h
      exact ⟨fun h => hne h.symm, b0, _, rfl, rfl⟩

omit [DecidableEq I] [DecidableEq A] in
theorem slot_timed (b : QBridge I A) (k : Nat) : Timed b { b with slot := k } := ⟨rfl, .refl _, fun h => h⟩

theorem drainReap_get {s : Quic I Q} {id : Nat} {b : QBridge I A} {ch now : Nat} {lost : Bool} {x : Nat} {b' : QBridge I A}
    (h : (s.drainReap cfg env T id b ch now lost).bridges.get? x = some b') :
    x ≠ id ∧ ∃ b0, s.bridges.get? x = some b0 ∧ Timed b0 b' := by
  unfold Quic.drainReap at h
  obtain ⟨hne, b0, k, h1, rfl⟩ := reapBridge_get h
  refine ⟨hne, b0, ?_, slot_timed b0 k⟩
  change (s.bridges.insert id _).get? x = some b0 at h1
  rwa [get?_insert, if_neg (Ne.symm hne)] at h1

/-- Every exchange and its stream have the same deadline. -/
def AlignInv (s : Quic I Q) : Prop := ∀ x b, s.bridges.get? x = some b → Aligned b

theorem AlignInv.same {s s' : Quic I Q} (h : AlignInv s) (hb : s'.bridges = s.bridges) : AlignInv s' := by
  unfold AlignInv; rw [hb]; exact h

theorem AlignInv.insert {s s' : Quic I Q} (h : AlignInv s) {id : Nat} {b : QBridge I A} (hb : s'.bridges = s.bridges.insert id b)
    (ha : Aligned b) : AlignInv s' := by
  intro x b' hx
  rw [hb, get?_insert] at hx
  split at hx
  · cases hx; exact ha
  · exact h x b' hx

omit [DecidableEq I] [DecidableEq A] in
theorem Aligned.timed {b b' : QBridge I A} (h : Aligned b) (ht : Timed b b') : Aligned b' := by
  unfold Aligned; rw [ht.stream.1, ht.deadline]; exact h

omit [DecidableEq I] [DecidableEq A] in
theorem new_aligned {st : Stream I A} {d : Nat} (hd : st.deadline = some d) (hp : st.pollTimeout = some d) (ch sid : Nat)
    (cmp : CmpOptions) (max : Nat) (label : Option Bytes) (skip eager : Bool) (k : Nat) :
    Aligned { QBridge.new st ch sid cmp max label skip eager with slot := k } := by
  unfold Aligned QBridge.new
  dsimp only
  rw [hp]; exact hd

/-- A dialled stream: its deadline is yet to come. -/
theorem dialled_fresh {e : Ep I A} {id now : Nat} {st : Stream I A} (h : (e.step cfg env (.dialSucceeded id now)).2 = .stream (some st)) :
    ∃ d, st.deadline = some d ∧ st.pollTimeout = some d ∧ now < d := by
  change Ep.Out.stream (e.dialSucceeded cfg id now).2 = _ at h
  injection h with h
  unfold Ep.dialSucceeded at h
  split at h
  · cases h
  · next i _ =>
    dsimp only at h
    split at h
    · cases h
    · next hd =>
      split at h
      · cases h
      · cases h
        exact ⟨i.deadline, rfl, rfl, Nat.lt_of_not_le hd⟩

theorem accepted_fresh {e : Ep I A} {src : A} {now : Nat} {st : Stream I A}
    (h : (e.step cfg env (.acceptStream src now)).2 = .stream (some st)) :
    st.deadline = some (now + cfg.streamTimeout) ∧ st.pollTimeout = some (now + cfg.streamTimeout) := by
  change Ep.Out.stream (e.acceptStream cfg src now).2 = _ at h
  injection h with h
  unfold Ep.acceptStream at h
  split at h
  · cases h
  · cases h
    exact ⟨rfl, rfl⟩

theorem AlignInv.move {a b : Quic I Q} (h : AlignInv a) (hm : Move cfg env X T a b) : AlignInv b := by
  cases hm with
  | push src bytes => refine h.same ?_; unfold pushIngress; split <;> rfl
  | commit now hb hev hr hb' =>
    refine h.insert rfl ?_
    have ha := h _ _ hb
    rcases hb' with rfl | ⟨_, body, dl, _, rfl⟩
    · exact ha
    · rfl
  | tweak hb hm => exact h.insert rfl (Aligned.timed (h _ _ hb) hm.timed)
  | sieve hh => refine h.same ?_; unfold takeDials; rw [sieve_eq]
  | pollDial id peer deadline hp => refine h.same ?_; unfold setTimer; rw [queueDial_eq]; rfl
  | takeEntry d rest hh hl => refine h.same ?_; rw [takeEntry_eq]
  | repark d now hl =>
    obtain ⟨w, hw⟩ := repark_eq (X := X) a d now
    refine h.same ?_; rw [hw]
  | retire d hl => refine h.same ?_; rw [retire_eq]
  | mint d now ch sid e t st hl hd he hc ht hst =>
    obtain ⟨d, h1, h2, _⟩ := dialled_fresh hst
    exact h.insert (id := st.id) rfl (new_aligned h1 h2 ..)
  | accept ch sid now e st hh hd he hc hst =>
    obtain ⟨h1, h2⟩ := accepted_fresh hst
    exact h.insert (id := st.id) rfl (new_aligned h1 h2 ..)
  | launch op id peer deadline kind hh hl hs hlim => refine h.same ?_; rw [launch_eq]; rfl
  | reap id ch b0 lost hb hbt hev hl =>
    intro x b' hx
    obtain ⟨_, b1, k, h1, rfl⟩ := reapBridge_get hx
    exact h x b1 h1
  | _ => exact h.same rfl

/-- What the first round of moving bytes relies on. -/
structure Sane (cfg : Cfg I A) (env : Env I A) (X : QCfg) (s : Quic I Q) : Prop where
  node : NodeInv cfg env X s
  align : AlignInv s

theorem Sane.moves (hS : Q.Sound) {a b : Quic I Q} (h : Sane cfg env X a) (hm : Moves cfg env X T a b) : Sane cfg env X b :=
  hm.inv (P := Sane cfg env X) (fun _ _ h hm => ⟨h.node.move hS hm, h.align.move hm⟩) h

theorem sane_run (hS : Q.Sound) {t0 : Nat} {e0 : Ep I A} (hnew : Ep.tryNew cfg env t0 = .ok e0) (q : Q.E) (cmp : CmpOptions)
    (ops : List (QOp I A)) : Sane cfg env X ((Quic.new e0 q cmp : Quic I Q).run cfg env X T ops) := by
  refine (run_inv (P := Sane cfg env X) hS (fun _ _ h hm => ⟨h.node.move hS hm, h.align.move hm⟩)
    (fun s h => ⟨h.node.pull, h.align.same ?_⟩)
    (fun s ring h => ⟨h.node.wipe ring, h.align.same rfl⟩) ops (new_idle e0 q cmp) ⟨.new hnew q cmp, ?_⟩).1
  · unfold pollIngress
    split <;> rfl
  · intro x b hx; cases hx

end Verif.Quic
