import Verif.Proof.QuicClock6
/-
The timers of waiting dials: every waiting dial has one, at or before its deadline, and nothing else has one.
-/
namespace Verif.Quic
open Verif Map QBridge
variable {I A : Type} [DecidableEq I] [DecidableEq A] {Q : Quinn A}
variable {cfg : Cfg I A} {env : Env I A} {X : QCfg} {T : TEnv}

structure DialInv (s : Quic I Q) : Prop where
  timed : ∀ d ∈ s.dials ++ flat s.parked, s.index.deadlineOf (.dial d.id) = some d.wake
  early : ∀ d ∈ s.waiting, d.wake ≤ d.deadline
  lone : ∀ id t, s.index.deadlineOf (.dial id) = some t → ∃ d ∈ s.waiting, d.id = id ∧ d.wake = t

theorem IdsInv.entries_nodup {G : List Nat} {s : Quic I Q} (h : IdsInv cfg env X G s) : (s.entries.map QDial.id).Nodup := by
  have h2 : s.held.Nodup := (h.ids.nodup.sublist (List.sublist_append_left _ _)).sublist (List.sublist_append_right _ _)
  unfold held at h2
  exact h2.sublist (List.sublist_append_left _ _)

omit [DecidableEq I] [DecidableEq A] in
theorem dialWake_le (deadline now : Nat) : dialWake X deadline now ≤ deadline := by
  unfold dialWake
  split
  · exact Nat.sub_le _ _
  · exact Nat.min_le_left _ _

/-- Waiting dials and dial timers as before, up to where the dials wait. -/
theorem DialInv.perm {s s' : Quic I Q} (h : DialInv s) (hi : ∀ id, s'.index.deadlineOf (.dial id) = s.index.deadlineOf (.dial id))
    (hw : s'.waiting.Perm s.waiting) (hd : ∀ d ∈ s'.dials ++ flat s'.parked, d ∈ s.dials ++ flat s.parked) : DialInv s' :=
  ⟨fun d hd' => (hi _).trans (h.timed d (hd d hd')), fun d hd' => h.early d (hw.mem_iff.1 hd'), fun id t ht => by
    rw [hi] at ht
    obtain ⟨d, hd1, hd2⟩ := h.lone id t ht
    exact ⟨d, hw.mem_iff.2 hd1, hd2⟩⟩

theorem DialInv.same {s s' : Quic I Q} (h : DialInv s) (h0 : ∀ id, s'.index.deadlineOf (.dial id) = s.index.deadlineOf (.dial id))
    (h1 : s'.dials = s.dials) (h2 : s'.parked = s.parked) (h3 : s'.hand = s.hand) : DialInv s' := by
  refine h.perm h0 ?_ ?_
  · unfold waiting; rw [h1, h2, h3]
  · rw [h1, h2]; exact fun _ h => h

theorem reapBridge_index (s : Quic I Q) (id : Nat) (b : QBridge I A) (ch : Nat) (lost : Bool) :
    (s.reapBridge cfg env id b ch lost).index = s.index.set (.bridge id) none := by
  have hc : ∀ (s : Quic I Q) (ok : Bool), (s.complete cfg env id ok).index = s.index := by
    intro s ok
    unfold complete
    repeat' split
    all_goals rfl
  have hf : ∀ (s : Quic I Q), (s.freeSlot ch).index = s.index := by
    intro s
    unfold freeSlot
    dsimp only
    repeat' split
    all_goals rfl
  have hu : ∀ (s : Quic I Q), (s.unslot ch b.slot).index = s.index := by
    intro s
    unfold unslot
    repeat' split
    all_goals rfl
  unfold reapBridge
  dsimp only
  rw [hc]
  have h0 : (s.unindex id ch b.sid).index = s.index.set (.bridge id) none := rfl
  split
  · rw [hf]
    split
    · exact h0
    · rw [hu]; exact h0
  · split
    · exact h0
    · rw [hu]; exact h0

theorem mem_swap {α : Type} {d f p h : List α} {x : α} : x ∈ d ++ p ++ h ↔ x ∈ h ++ (d ++ p) := by
  simp only [List.mem_append]; exact or_comm

theorem DialInv.move {a b : Quic I Q} (h : DialInv a) (hN : IdsInv cfg env X [] a) (hN' : IdsInv cfg env X [] b) (hk : BooksInv a)
    (hm : Move cfg env X T a b) : DialInv b := by
  cases hm with
  | book _ _ _ _ _ _ _ _ _ _ _ _ _ _ _ _ hix => exact h.same hix rfl rfl rfl
  | push src bytes => unfold pushIngress; split <;> exact h.same (fun _ => rfl) rfl rfl rfl
  | sieve hh =>
    rw [sieve_eq]
    refine ⟨fun d hd => h.timed d (List.mem_append_right _ hd), fun d hd => ?_, fun id t ht => ?_⟩
    · have hd : d ∈ [] ++ flat a.parked ++ (a.dials ++ (Coord.dialsOf a.ep.sieveDials.2).map (fromRequest a.ep)) := hd
      rw [List.nil_append, ← List.append_assoc] at hd
      rcases List.mem_append.1 hd with hd | hd
      · refine h.early d (List.mem_append_left _ ?_)
        exact (List.perm_append_comm).mem_iff.1 hd
      · obtain ⟨x, _, rfl⟩ := List.mem_map.1 hd
        exact Nat.le_refl _
    · obtain ⟨d, hd, h1⟩ := h.lone id t ht
      refine ⟨d, ?_, h1⟩
      show d ∈ [] ++ flat a.parked ++ (a.dials ++ (Coord.dialsOf a.ep.sieveDials.2).map (fromRequest a.ep))
      rw [List.nil_append, ← List.append_assoc]
      refine List.mem_append_left _ ?_
      unfold waiting at hd
      rw [hh, List.append_nil] at hd
      exact (List.perm_append_comm).mem_iff.1 hd
  | pollDial id peer deadline hp =>
    have hnd := hN'.entries_nodup
    rw [queueDial_eq] at hnd ⊢
    unfold setTimer at hnd ⊢
    generalize hf : fromRequest (a.callEp cfg env none .pollEvent).1.ep (id, peer, deadline) = f at hnd
    have f1 : f.id = id := by rw [← hf]; rfl
    have f2 : f.wake = deadline := by rw [← hf]; rfl
    have f3 : f.deadline = deadline := by rw [← hf]; rfl
    have fresh : ∀ d ∈ a.waiting, d.id ≠ id := by
      intro d hd he
      have hp : ((a.dials ++ [f]) ++ flat a.parked ++ a.hand ++ a.limbo.toList).Perm (f :: (a.waiting ++ a.limbo.toList)) := by
        unfold waiting
        simp only [List.append_assoc, List.cons_append, List.nil_append]
        exact List.perm_middle
      have := (hp.map QDial.id).nodup_iff.1 hnd
      rw [List.map_cons, List.nodup_cons] at this
      exact this.1 (by rw [f1, ← he]; exact List.mem_map_of_mem (List.mem_append_left _ hd))
    refine ⟨fun d hd => ?_, fun d hd => ?_, fun i t ht => ?_⟩
    · show (a.index.set (.dial id) (some deadline)).deadlineOf (.dial d.id) = _
      have hd : d ∈ (a.dials ++ [f]) ++ flat a.parked := hd
      rw [DeadlineIndex.deadlineOf_set]
      by_cases hdf : d = f
      · subst hdf; rw [if_pos (by rw [f1]), f2]
      · have hd' : d ∈ a.dials ++ flat a.parked := by
          simp only [List.mem_append, List.mem_singleton] at hd ⊢
          rcases hd with (hd | hd) | hd
          · exact .inl hd
          · exact absurd hd hdf
          · exact .inr hd
        rw [if_neg (by intro hx; cases hx; exact fresh d (List.mem_append_left _ hd') rfl)]
        exact h.timed d hd'
    · have hd : d ∈ (a.dials ++ [f]) ++ flat a.parked ++ a.hand := hd
      by_cases hdf : d = f
      · subst hdf; rw [f2, f3]
      · refine h.early d ?_
        unfold waiting
        simp only [List.mem_append, List.mem_singleton] at hd ⊢
        rcases hd with ((hd | hd) | hd) | hd
        · exact .inl (.inl hd)
        · exact absurd hd hdf
        · exact .inl (.inr hd)
        · exact .inr hd
    · change (a.index.set (.dial id) (some deadline)).deadlineOf (.dial i) = some t at ht
      show ∃ d ∈ (a.dials ++ [f]) ++ flat a.parked ++ a.hand, d.id = i ∧ d.wake = t
      rw [DeadlineIndex.deadlineOf_set] at ht
      split at ht
      · next he =>
        cases he
        cases ht
        exact ⟨f, by simp, f1, f2⟩
      · obtain ⟨d, hd, h1⟩ := h.lone i t ht
        refine ⟨d, ?_, h1⟩
        unfold waiting at hd
        simp only [List.mem_append, List.mem_singleton] at hd ⊢
        rcases hd with (hd | hd) | hd
        · exact .inl (.inl (.inl hd))
        · exact .inl (.inr hd)
        · exact .inr hd
  | takeDials hh =>
    refine h.perm (fun _ => rfl) ?_ (fun d hd => List.mem_append_right _ hd)
    unfold waiting takeDials
    dsimp only
    rw [hh, List.append_nil, List.nil_append]
    exact List.perm_append_comm
  | takeParked hh =>
    refine h.perm (fun _ => rfl) ?_ (fun d hd => List.mem_append_left _ ?_)
    · have := taken_perm (T := T) a
      show (a.dials ++ [] ++ (a.takeParked T).hand).Perm (a.dials ++ flat a.parked ++ a.hand)
      rw [hh, List.append_nil, List.append_nil]
      exact this.append_left _
    · have hd : d ∈ a.dials ++ [] := hd
      rwa [List.append_nil] at hd
  | popParked peer d rest hh hp =>
    have h1 : (flat (a.parked.insert peer rest) ++ [d]).Perm (flat a.parked) := by
      refine ((flat_insert a.parked hk.np peer rest).append_right _).trans ?_
      refine List.Perm.trans ?_ (flat_erase hk.np hp).symm
      exact List.perm_append_comm
    refine h.perm (fun _ => rfl) ?_ (fun x hx => ?_)
    · show (a.dials ++ flat (a.parked.insert peer rest) ++ [d]).Perm (a.dials ++ flat a.parked ++ a.hand)
      rw [hh, List.append_nil, List.append_assoc]
      exact List.Perm.append_left _ h1
    · have hx : x ∈ a.dials ++ flat (a.parked.insert peer rest) := hx
      rcases List.mem_append.1 hx with hx | hx
      · exact List.mem_append_left _ hx
      · exact List.mem_append_right _ (h1.mem_iff.1 (List.mem_append_left _ hx))
  | dropBucket peer hp =>
    have h1 := (flat_erase hk.np hp).symm
    refine h.perm (fun _ => rfl) ?_ (fun x hx => ?_)
    · show (a.dials ++ flat (a.parked.erase peer) ++ a.hand).Perm (a.dials ++ flat a.parked ++ a.hand)
      exact (h1.append_left _).append_right _
    · have hx : x ∈ a.dials ++ flat (a.parked.erase peer) := hx
      rcases List.mem_append.1 hx with hx | hx
      · exact List.mem_append_left _ hx
      · exact List.mem_append_right _ (h1.mem_iff.1 hx)
  | takeEntry d rest hh hl =>
    have hnd := hN'.entries_nodup
    rw [takeEntry_eq] at hnd ⊢
    have hnd : ((a.dials ++ flat a.parked ++ a.hand.tail ++ [d]).map QDial.id).Nodup := hnd
    have apart : ∀ x ∈ a.dials ++ flat a.parked ++ a.hand.tail, x.id ≠ d.id := by
      intro x hx he
      rw [List.map_append] at hnd
      exact List.disjoint_of_nodup_append hnd (List.mem_map_of_mem hx) (by rw [he]; exact List.mem_singleton.2 rfl)
    have sub : ∀ x ∈ a.dials ++ flat a.parked ++ a.hand.tail, x ∈ a.waiting := by
      intro x hx
      rcases List.mem_append.1 hx with hx | hx
      · exact List.mem_append_left _ hx
      · exact List.mem_append_right _ (List.mem_of_mem_tail hx)
    refine ⟨fun x hx => ?_, fun x hx => h.early x (sub x hx), fun i t ht => ?_⟩
    · show (a.index.set (.dial d.id) none).deadlineOf (.dial x.id) = _
      rw [DeadlineIndex.deadlineOf_set, if_neg (by intro he; injection he with he; exact apart x (List.mem_append_left _ hx) he.symm)]
      exact h.timed x hx
    · change (a.index.set (.dial d.id) none).deadlineOf (.dial i) = some t at ht
      rw [DeadlineIndex.deadlineOf_set] at ht
      split at ht
      · cases ht
      · next hne =>
        obtain ⟨x, hx, h1, h2⟩ := h.lone i t ht
        refine ⟨x, ?_, h1, h2⟩
        show x ∈ a.dials ++ flat a.parked ++ a.hand.tail
        rcases List.mem_append.1 hx with hx | hx
        · exact List.mem_append_left _ hx
        · rw [hh] at hx
          rcases List.mem_cons.1 hx with rfl | hx
          · exact absurd (by rw [h1]) hne
          · rw [hh]; exact List.mem_append_right _ hx
  | repark d now hl =>
    have hnd := hN.entries_nodup
    rw [entries_some hl, List.map_append] at hnd
    have apart : ∀ x ∈ a.waiting, x.id ≠ d.id := by
      intro x hx he
      exact List.disjoint_of_nodup_append hnd (List.mem_map_of_mem hx) (by rw [he]; exact List.mem_singleton.2 rfl)
    generalize hw : dialWake X d.deadline now = w
    have hle : w ≤ d.deadline := by rw [← hw]; exact dialWake_le _ _
    generalize hf : ({ d with wake := w, attempted := true } : QDial A) = f
    have f1 : f.id = d.id := by rw [← hf]
    have f2 : f.wake = w := by rw [← hf]
    have f3 : f.deadline = d.deadline := by rw [← hf]
    have hi : (a.repark X d now).index = a.index.set (.dial d.id) (some w) := by
      rw [← hw]; unfold repark; rw [noteUp_eq]; rfl
    have hdl : (a.repark X d now).dials = a.dials := by unfold repark; rw [noteUp_eq]; rfl
    have hhd : (a.repark X d now).hand = a.hand := by unfold repark; rw [noteUp_eq]; rfl
    have hpk : (flat (a.repark X d now).parked).Perm (f :: flat a.parked) := by
      have : (a.repark X d now).parked = a.parked.insert d.peer (if d.kind = ExKind.reliablePing then f :: a.bucketOf d.peer
          else a.bucketOf d.peer ++ [f]) := by
        rw [← hf, ← hw]; unfold repark; rw [noteUp_eq]; rfl
      rw [this]
      generalize hb : a.bucketOf d.peer = bucket
      unfold bucketOf at hb
      have hfl : (flat a.parked).Perm (bucket ++ flat (a.parked.erase d.peer)) := by
        cases hg : a.parked.get? d.peer with
        | none => rw [hg] at hb; subst hb; rw [erase_absent hg]; exact .refl _
        | some l => rw [hg] at hb; subst hb; exact flat_erase hk.np hg
      have hl' : (if d.kind = ExKind.reliablePing then f :: bucket else bucket ++ [f]).Perm (f :: bucket) := by
        split
        · exact .refl _
        · exact List.perm_append_comm
      exact (flat_insert a.parked hk.np d.peer _).trans ((hl'.append_right _).trans (hfl.symm.cons _))
    refine ⟨fun x hx => ?_, fun x hx => ?_, fun i t ht => ?_⟩
    · rw [hi, DeadlineIndex.deadlineOf_set]
      rw [hdl] at hx
      rcases List.mem_append.1 hx with hx | hx
      · rw [if_neg (by intro he; injection he with he; exact apart x (List.mem_append_left _ (List.mem_append_left _ hx)) he.symm)]
        exact h.timed x (List.mem_append_left _ hx)
      · rcases List.mem_cons.1 (hpk.mem_iff.1 hx) with rfl | hx
        · rw [if_pos (by rw [f1]), f2]
        · rw [if_neg (by intro he; injection he with he; exact apart x (List.mem_append_left _ (List.mem_append_right _ hx)) he.symm)]
          exact h.timed x (List.mem_append_right _ hx)
    · unfold waiting at hx
      rw [hdl, hhd] at hx
      simp only [List.mem_append] at hx
      rcases hx with (hx | hx) | hx
      · exact h.early x (List.mem_append_left _ (List.mem_append_left _ hx))
      · rcases List.mem_cons.1 (hpk.mem_iff.1 hx) with rfl | hx
        · rw [f2, f3]; exact hle
        · exact h.early x (List.mem_append_left _ (List.mem_append_right _ hx))
      · exact h.early x (List.mem_append_right _ hx)
    · rw [hi, DeadlineIndex.deadlineOf_set] at ht
      unfold waiting
      rw [hdl, hhd]
      split at ht
      · next he =>
        cases he
        cases ht
        exact ⟨f, List.mem_append_left _ (List.mem_append_right _ (hpk.mem_iff.2 List.mem_cons_self)), f1, f2⟩
      · obtain ⟨x, hx, h1⟩ := h.lone i t ht
        refine ⟨x, ?_, h1⟩
        unfold waiting at hx
        simp only [List.mem_append] at hx ⊢
        rcases hx with (hx | hx) | hx
        · exact .inl (.inl hx)
        · exact .inl (.inr (hpk.mem_iff.2 (List.mem_cons_of_mem _ hx)))
        · exact .inr hx
  | launch op id peer deadline kind hh _ _ _ =>
    rw [launch_eq]
    refine ⟨h.timed, fun d hd => ?_, fun i t ht => ?_⟩
    · have hd : d ∈ a.dials ++ flat a.parked ++ [_] := hd
      rcases List.mem_append.1 hd with hd | hd
      · exact h.early d (List.mem_append_left _ hd)
      · rw [List.mem_singleton] at hd; subst hd; exact Nat.le_refl _
    · obtain ⟨x, hx, h1⟩ := h.lone i t ht
      refine ⟨x, ?_, h1⟩
      unfold waiting at hx
      rw [hh, List.append_nil] at hx
      exact List.mem_append_left _ hx
  | retire d _ => rw [retire_eq]; exact h.same (fun _ => rfl) rfl rfl rfl
  | reap id ch b lost _ _ _ _ =>
    have := reapBridge_apart (cfg := cfg) (env := env) a id b ch lost
    refine h.same (fun i => ?_) this.dials this.parked this.hand
    rw [reapBridge_index, DeadlineIndex.deadlineOf_set, if_neg (by intro h; cases h)]
  | _ => exact h.same (fun _ => rfl) rfl rfl rfl

/-- The timers at every call boundary. -/
theorem clock_run (hQ : Q.Sound) {t0 : Nat} {e0 : Ep I A} (hnew : Ep.tryNew cfg env t0 = .ok e0) (q : Q.E) (cmp : CmpOptions)
    (ops : List (QOp I A)) :
    Kept0 ((Quic.new e0 q cmp : Quic I Q).run cfg env X T ops) := by
  have key : ∀ (ops : List (QOp I A)) (s : Quic I Q), Idle s → NodeInv cfg env X s → Kept0 s → Kept0 (s.run cfg env X T ops) := by
    intro ops
    induction ops with
    | nil => intro s _ _ h; exact h
    | cons op ops ih =>
      intro s hi hN h
      obtain ⟨n1, n2⟩ := node_from (T := T) hQ hi hN [op]
      exact ih _ n2 n1 (Clock.step hQ op hi hN h)
  exact key ops _ (new_idle e0 q cmp) (.new hnew q cmp)
    ⟨DeadlineIndex.inv_new, fun _ _ => rfl, fun _ _ _ h => (by cases h), fun _ _ => rfl, fun _ _ _ h => (by cases h), fun _ _ _ h => (by cases h)⟩

theorem dial_run (hQ : Q.Sound) {t0 : Nat} {e0 : Ep I A} (hnew : Ep.tryNew cfg env t0 = .ok e0) (q : Q.E) (cmp : CmpOptions)
    (ops : List (QOp I A)) : DialInv ((Quic.new e0 q cmp : Quic I Q).run cfg env X T ops) := by
  have := run_inv (cfg := cfg) (env := env) (X := X) (T := T) (P := fun s : Quic I Q => NodeInv cfg env X s ∧ DialInv s) hQ
    (fun a b h hm => ⟨h.1.move hQ hm, h.2.move h.1.ids (h.1.move hQ hm).ids h.1.books hm⟩)
    (fun a h => ⟨h.1.pull, by unfold pollIngress; split <;> exact h.2.same (fun _ => rfl) rfl rfl rfl⟩)
    (fun a ring h => ⟨h.1.wipe ring, h.2.same (fun _ => rfl) rfl rfl rfl⟩) ops (new_idle e0 q cmp)
    ⟨.new hnew q cmp, ⟨fun _ h => (by cases h), fun _ h => (by cases h), fun _ _ h => (by cases h)⟩⟩
  exact this.1.2

end Verif.Quic
