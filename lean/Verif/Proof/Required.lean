import Verif.Proof.Messages
namespace Verif
open Spec

theorem lastVarint_mem : ∀ {fs : List Field} {n v : Nat}, lastVarint fs n = some v →
    (n, WireVal.varint v) ∈ fs
  | [], _, _, h => by simp [lastVarint] at h
  | (k, .varint w) :: fs, n, v, h => by
    simp only [lastVarint] at h
    rcases Option.or_eq_some_iff.1 h with h | ⟨_, h2⟩
    · exact List.mem_cons_of_mem _ (lastVarint_mem h)
    · split at h2
      · rename_i hk; injection h2 with h2; subst hk; subst h2; simp
      · simp at h2
  | (k, .len w) :: fs, n, v, h => List.mem_cons_of_mem _ (lastVarint_mem (by simpa only [lastVarint] using h))
  | (k, .i32 w) :: fs, n, v, h => List.mem_cons_of_mem _ (lastVarint_mem (by simpa only [lastVarint] using h))
  | (k, .i64 w) :: fs, n, v, h => List.mem_cons_of_mem _ (lastVarint_mem (by simpa only [lastVarint] using h))

theorem lastBytes_mem : ∀ {fs : List Field} {n : Nat} {v : Bytes}, lastBytes fs n = some v →
    (n, WireVal.len v) ∈ fs
  | [], _, _, h => by simp [lastBytes] at h
  | (k, .len w) :: fs, n, v, h => by
    simp only [lastBytes] at h
    rcases Option.or_eq_some_iff.1 h with h | ⟨_, h2⟩
    · exact List.mem_cons_of_mem _ (lastBytes_mem h)
    · split at h2
      · rename_i hk; injection h2 with h2; subst hk; subst h2; simp
      · simp at h2
  | (k, .varint w) :: fs, n, v, h => List.mem_cons_of_mem _ (lastBytes_mem (by simpa only [lastBytes] using h))
  | (k, .i32 w) :: fs, n, v, h => List.mem_cons_of_mem _ (lastBytes_mem (by simpa only [lastBytes] using h))
  | (k, .i64 w) :: fs, n, v, h => List.mem_cons_of_mem _ (lastBytes_mem (by simpa only [lastBytes] using h))

theorem lastBytes_append : ∀ (fs gs : List Field) (n : Nat),
    lastBytes (fs ++ gs) n = (lastBytes gs n).or (lastBytes fs n)
  | [], gs, n => by simp [lastBytes]
  | (k, .len w) :: fs, gs, n => by
    simp only [List.cons_append, lastBytes, lastBytes_append fs gs n, Option.or_assoc]
  | (k, .varint w) :: fs, gs, n => by
    simp only [List.cons_append, lastBytes, lastBytes_append fs gs n]
  | (k, .i32 w) :: fs, gs, n => by
    simp only [List.cons_append, lastBytes, lastBytes_append fs gs n]
  | (k, .i64 w) :: fs, gs, n => by
    simp only [List.cons_append, lastBytes, lastBytes_append fs gs n]

/-- Fold of one scalar out of a message decoder. -/
theorem fold_varint {M α : Type} (step : M → Field → Option M) (get : M → Option α) (conv : Nat → α)
    (n : Nat)
    (hstep : ∀ m f m', step m f = some m' → get m' = ((lastVarint [f] n).map conv).or (get m)) :
    ∀ (fs : List Field) (m m' : M), fs.foldlM step m = some m' →
      get m' = ((lastVarint fs n).map conv).or (get m) := by
  intro fs
  induction fs with
  | nil => intro m m' h; simp [pure] at h; subst h; simp [lastVarint]
  | cons f fs ih =>
    intro m m' h
    simp only [List.foldlM_cons, bind, Option.bind_eq_some_iff] at h
    obtain ⟨m1, h1, h2⟩ := h
    rw [ih m1 m' h2, hstep m f m1 h1]
    obtain ⟨k, w⟩ := f
    cases w <;> simp only [lastVarint] <;> cases lastVarint fs n <;> simp

theorem fold_bytes {M α : Type} (step : M → Field → Option M) (get : M → Option α) (conv : Bytes → α)
    (n : Nat)
    (hstep : ∀ m f m', step m f = some m' → get m' = ((lastBytes [f] n).map conv).or (get m)) :
    ∀ (fs : List Field) (m m' : M), fs.foldlM step m = some m' →
      get m' = ((lastBytes fs n).map conv).or (get m) := by
  intro fs
  induction fs with
  | nil => intro m m' h; simp [pure] at h; subst h; simp [lastBytes]
  | cons f fs ih =>
    intro m m' h
    simp only [List.foldlM_cons, bind, Option.bind_eq_some_iff] at h
    obtain ⟨m1, h1, h2⟩ := h
    rw [ih m1 m' h2, hstep m f m1 h1]
    obtain ⟨k, w⟩ := f
    cases w <;> simp only [lastBytes] <;> cases lastBytes fs n <;> simp

/-- Fold of a merged node sub-message. -/
theorem fold_node {M : Type} (step : M → Field → Option M) (get : M → Option PbNode) (n : Nat)
    (proj : PbNode → Option Bytes) (j : Nat)
    (hproj : ∀ m f m', PbNode.step m f = some m' → proj m' = (lastBytes [f] j).or (proj m))
    (h0 : proj {} = none)
    (hstep : ∀ m f m', step m f = some m' →
      (get m' = get m ∧ innerFields n f = []) ∨
        ∃ b, f = (n, .len b) ∧ PbNode.merge (get m) b = get m' ∧ get m' ≠ none) :
    ∀ (fs : List Field) (m m' : M), fs.foldlM step m = some m' →
      (get m').bind proj = (lastBytes (subFields fs n) j).or ((get m).bind proj) := by
  intro fs
  induction fs with
  | nil => intro m m' h; simp [pure] at h; subst h; simp [subFields, lastBytes]
  | cons f fs ih =>
    intro m m' h
    simp only [List.foldlM_cons, bind, Option.bind_eq_some_iff] at h
    obtain ⟨m1, h1, h2⟩ := h
    rw [ih m1 m' h2]
    simp only [subFields, List.flatMap_cons, lastBytes_append, Option.or_assoc]
    congr 1
    rcases hstep m f m1 h1 with ⟨hg, hi⟩ | ⟨b, rfl, hm, hne⟩
    · rw [hg, hi]; simp [lastBytes]
    · unfold PbNode.merge at hm
      simp only [innerFields, if_pos]
      cases hp : pbFields b with
      | none => rw [hp] at hm; exact absurd hm.symm hne
      | some gs =>
        simp only [hp] at hm
        cases hg : get m1 with
        | none => exact absurd hg hne
        | some nd =>
          rw [hg] at hm
          have := fold_bytes PbNode.step proj id j
            (fun m f m' h => by simpa using hproj m f m' h) gs _ _ hm
          simp only [Option.map_id_fun, id_eq] at this
          simp only [Option.bind_some, this, Option.getD_some]
          congr 1
          cases get m with
          | none => simp [h0]
          | some x => simp

theorem list_fold_states {M : Type} (step : M → Field → Option M) (get : M → List PbPushNodeState)
    (n : Nat)
    (hstep : ∀ m f m', step m f = some m' →
      (get m' = get m ∧ elements [f] n = []) ∨
        ∃ b s, f = (n, .len b) ∧ PbPushNodeState.decode b = some s ∧ get m' = get m ++ [s]) :
    ∀ (fs : List Field) (m m' : M), fs.foldlM step m = some m' →
      ∃ ss, get m' = get m ++ ss ∧
        List.Forall₂ (fun b s => PbPushNodeState.decode b = some s) (elements fs n) ss := by
  intro fs
  induction fs with
  | nil => intro m m' h; simp [pure] at h; subst h; exact ⟨[], by simp, by simp [elements]⟩
  | cons f fs ih =>
    intro m m' h
    simp only [List.foldlM_cons, bind, Option.bind_eq_some_iff] at h
    obtain ⟨m1, h1, h2⟩ := h
    obtain ⟨ss, hss, hf⟩ := ih m1 m' h2
    have hel : elements (f :: fs) n = elements [f] n ++ elements fs n := by
      rw [show f :: fs = [f] ++ fs from rfl]
      simp only [elements, List.filterMap_append]
    rcases hstep m f m1 h1 with ⟨hg, he⟩ | ⟨b, s, rfl, hd, hg⟩
    · exact ⟨ss, by rw [hss, hg], by rw [hel, he]; exact hf⟩
    · refine ⟨s :: ss, by rw [hss, hg]; simp, ?_⟩
      rw [hel]
      have : elements [(n, .len b)] n = [b] := by simp [elements]
      rw [this]
      exact List.Forall₂.cons hd hf

macro "fold_step" s:ident : tactic =>
  `(tactic| (
    intro m f m' h
    unfold $s at h
    obtain ⟨k, w⟩ := f
    dsimp only at h
    split at h <;> simp_all [lastVarint, lastBytes] <;>
      first
      | (subst h; simp_all [lastVarint, lastBytes]; done)
      | (cases w <;> simp_all [lastVarint, lastBytes] <;> done)
      | (subst h; cases w <;> simp_all [lastVarint, lastBytes] <;> done)
      | (obtain ⟨_, _, h⟩ := h; subst h; simp_all [lastVarint, lastBytes])
      | (obtain ⟨_, h⟩ := h; subst h; simp_all [lastVarint, lastBytes])))

theorem node_id (m : PbNode) (f : Field) (m' : PbNode) (h : PbNode.step m f = some m') :
    m'.id = (lastBytes [f] 1).or m.id := by
  revert m f m'; fold_step PbNode.step

theorem node_addr (m : PbNode) (f : Field) (m' : PbNode) (h : PbNode.step m f = some m') :
    m'.addr = (lastBytes [f] 2).or m.addr := by
  revert m f m'; fold_step PbNode.step

theorem bad_decoded {fs : List Field} {m : PbBad} (h : fs.foldlM PbBad.step {} = some m) :
    m.incarnation = (lastVarint fs 1).map asU32 ∧ m.node = lastBytes fs 2 ∧ m.src = lastBytes fs 3 := by
  have h1 := fold_varint PbBad.step (·.incarnation) asU32 1 (by fold_step PbBad.step) fs _ _ h
  have h2 := fold_bytes PbBad.step (·.node) id 2 (by fold_step PbBad.step) fs _ _ h
  have h3 := fold_bytes PbBad.step (·.src) id 3 (by fold_step PbBad.step) fs _ _ h
  simp only [Option.or_none, Option.map_id_fun, id_eq] at h1 h2 h3
  exact ⟨h1, h2, h3⟩

theorem ack_decoded {fs : List Field} {m : PbAck} (h : fs.foldlM PbAck.step {} = some m) :
    m.seq = ((lastVarint fs 1).getD 0) % 2 ^ 32 ∧ m.payload = (lastBytes fs 2).getD [] := by
  have h1 := fold_varint PbAck.step (fun m => some m.seq) asU32 1 (by fold_step PbAck.step) fs _ _ h
  have h2 := fold_bytes PbAck.step (fun m => some m.payload) id 2 (by fold_step PbAck.step) fs _ _ h
  constructor
  · cases hl : lastVarint fs 1 <;> simp [hl, asU32] at h1 ⊢ <;> exact h1
  · cases hl : lastBytes fs 2 <;> simp [hl] at h2 ⊢ <;> exact h2

theorem nack_decoded {fs : List Field} {m : PbNack} (h : fs.foldlM PbNack.step {} = some m) :
    m.seq = ((lastVarint fs 1).getD 0) % 2 ^ 32 := by
  have h1 := fold_varint PbNack.step (fun m => some m.seq) asU32 1 (by fold_step PbNack.step) fs _ _ h
  cases hl : lastVarint fs 1 <;> simp [hl, asU32] at h1 ⊢ <;> exact h1

theorem userData_decoded {fs : List Field} {m : PbUserData} (h : fs.foldlM PbUserData.step {} = some m) :
    m.data = (lastBytes fs 1).getD [] := by
  have h2 := fold_bytes PbUserData.step (fun m => some m.data) id 1 (by fold_step PbUserData.step) fs _ _ h
  cases hl : lastBytes fs 1 <;> simp [hl] at h2 ⊢ <;> exact h2

theorem error_utf8 : ∀ {fs : List Field} {m m' : PbErrorResponse},
    fs.foldlM PbErrorResponse.step m = some m' → isUtf8 m.error = true → isUtf8 m'.error = true := by
  intro fs
  induction fs with
  | nil => intro m m' h hu; simp [pure] at h; subst h; exact hu
  | cons f fs ih =>
    intro m m' h hu
    simp only [List.foldlM_cons, bind, Option.bind_eq_some_iff] at h
    obtain ⟨m1, h1, h2⟩ := h
    refine ih h2 ?_
    unfold PbErrorResponse.step at h1
    split at h1
    · split at h1
      · injection h1 with h1; subst h1; assumption
      · simp at h1
    · simp at h1
    · injection h1 with h1; subst h1; exact hu

theorem error_decoded {fs : List Field} {m : PbErrorResponse}
    (h : fs.foldlM PbErrorResponse.step {} = some m) :
    m.error = (lastBytes fs 1).getD [] ∧ isUtf8 m.error = true := by
  refine ⟨?_, error_utf8 h (by rfl)⟩
  have h2 := fold_bytes PbErrorResponse.step (fun m => some m.error) id 1
    (by fold_step PbErrorResponse.step) fs _ _ h
  cases hl : lastBytes fs 1 <;> simp [hl] at h2 ⊢ <;> exact h2

theorem pushState_decoded {fs : List Field} {m : PbPushNodeState}
    (h : fs.foldlM PbPushNodeState.step {} = some m) :
    m.id = lastBytes fs 1 ∧ m.addr = lastBytes fs 2 ∧ m.metadata = (lastBytes fs 3).getD [] ∧
    m.incarnation = (lastVarint fs 4).map asU32 ∧ m.state = (lastVarint fs 5).map asI32 ∧
    m.pv = (lastVarint fs 6).map asU32 ∧ m.dv = (lastVarint fs 7).map asU32 := by
  have h1 := fold_bytes PbPushNodeState.step (·.id) id 1 (by fold_step PbPushNodeState.step) fs _ _ h
  have h2 := fold_bytes PbPushNodeState.step (·.addr) id 2 (by fold_step PbPushNodeState.step) fs _ _ h
  have h3 := fold_bytes PbPushNodeState.step (fun m => some m.metadata) id 3
    (by fold_step PbPushNodeState.step) fs _ _ h
  have h4 := fold_varint PbPushNodeState.step (·.incarnation) asU32 4
    (by fold_step PbPushNodeState.step) fs _ _ h
  have h5 := fold_varint PbPushNodeState.step (·.state) asI32 5
    (by fold_step PbPushNodeState.step) fs _ _ h
  have h6 := fold_varint PbPushNodeState.step (·.pv) asU32 6
    (by fold_step PbPushNodeState.step) fs _ _ h
  have h7 := fold_varint PbPushNodeState.step (·.dv) asU32 7
    (by fold_step PbPushNodeState.step) fs _ _ h
  simp only [Option.or_none, Option.map_id_fun, id_eq] at h1 h2 h4 h5 h6 h7
  refine ⟨h1, h2, ?_, h4, h5, h6, h7⟩
  cases hl : lastBytes fs 3 <;> simp [hl] at h3 ⊢ <;> exact h3

theorem node_fold {M : Type} (step : M → Field → Option M) (get : M → Option PbNode) (n : Nat)
    (m0 : M) (hm0 : get m0 = none)
    (hstep : ∀ m f m', step m f = some m' →
      (get m' = get m ∧ innerFields n f = []) ∨
        ∃ b, f = (n, .len b) ∧ PbNode.merge (get m) b = get m' ∧ get m' ≠ none)
    {fs : List Field} {m : M} (h : fs.foldlM step m0 = some m) :
    (get m).bind (·.id) = lastBytes (subFields fs n) 1 ∧
      (get m).bind (·.addr) = lastBytes (subFields fs n) 2 := by
  have h1 := fold_node step get n (·.id) 1 node_id rfl hstep fs _ _ h
  have h2 := fold_node step get n (·.addr) 2 node_addr rfl hstep fs _ _ h
  rw [hm0] at h1 h2
  simp only [Option.bind_none, Option.or_none] at h1 h2
  exact ⟨h1, h2⟩

macro "node_step" s:ident : tactic =>
  `(tactic| (
    intro m f m' h
    unfold $s at h
    obtain ⟨k, w⟩ := f
    dsimp only at h
    split at h <;> simp only [Option.map_eq_some_iff, Option.some.injEq, reduceCtorEq] at h <;>
      first
      | (obtain ⟨nd, h1, h⟩ := h; subst h; right; exact ⟨_, rfl, h1, by simp⟩)
      | (obtain ⟨nd, h1, h⟩ := h; subst h; left; exact ⟨rfl, by simp [innerFields]⟩)
      | (subst h; left; refine ⟨rfl, ?_⟩; simp [innerFields]; done)
      | (subst h; left; refine ⟨rfl, ?_⟩; cases w <;> simp_all [innerFields])))

theorem alive_decoded {fs : List Field} {m : PbAlive} (h : fs.foldlM PbAlive.step {} = some m) :
    m.incarnation = (lastVarint fs 1).map asU32 ∧ m.metadata = (lastBytes fs 2).getD [] ∧
    m.node.bind (·.id) = lastBytes (subFields fs 3) 1 ∧
    m.node.bind (·.addr) = lastBytes (subFields fs 3) 2 ∧
    m.pv = (lastVarint fs 4).map asU32 ∧ m.dv = (lastVarint fs 5).map asU32 := by
  have h1 := fold_varint PbAlive.step (·.incarnation) asU32 1 (by fold_step PbAlive.step) fs _ _ h
  have h2 := fold_bytes PbAlive.step (fun m => some m.metadata) id 2 (by fold_step PbAlive.step) fs _ _ h
  have h4 := fold_varint PbAlive.step (·.pv) asU32 4 (by fold_step PbAlive.step) fs _ _ h
  have h5 := fold_varint PbAlive.step (·.dv) asU32 5 (by fold_step PbAlive.step) fs _ _ h
  obtain ⟨h6, h7⟩ := node_fold PbAlive.step (·.node) 3 {} rfl (by node_step PbAlive.step) h
  simp only [Option.or_none] at h1 h4 h5
  refine ⟨h1, ?_, h6, h7, h4, h5⟩
  cases hl : lastBytes fs 2 <;> simp [hl] at h2 ⊢ <;> exact h2

theorem ping_decoded {fs : List Field} {m : PbPing} (h : fs.foldlM PbPing.step {} = some m) :
    m.seq = (lastVarint fs 1).map asU32 ∧
    m.source.bind (·.id) = lastBytes (subFields fs 2) 1 ∧
    m.source.bind (·.addr) = lastBytes (subFields fs 2) 2 ∧
    m.target.bind (·.id) = lastBytes (subFields fs 3) 1 ∧
    m.target.bind (·.addr) = lastBytes (subFields fs 3) 2 := by
  have h1 := fold_varint PbPing.step (·.seq) asU32 1 (by fold_step PbPing.step) fs _ _ h
  obtain ⟨h4, h5⟩ := node_fold PbPing.step (·.source) 2 {} rfl (by node_step PbPing.step) h
  obtain ⟨h6, h7⟩ := node_fold PbPing.step (·.target) 3 {} rfl (by node_step PbPing.step) h
  simp only [Option.or_none] at h1
  exact ⟨h1, h4, h5, h6, h7⟩

theorem pushPull_decoded {fs : List Field} {m : PbPushPull} (h : fs.foldlM PbPushPull.step {} = some m) :
    m.join = decide ((lastVarint fs 1).getD 0 ≠ 0) ∧ m.userData = (lastBytes fs 3).getD [] ∧
    List.Forall₂ (fun b s => PbPushNodeState.decode b = some s) (elements fs 2) m.states := by
  have h1 := fold_varint PbPushPull.step (fun m => some m.join) (fun v => decide (v ≠ 0)) 1
    (by fold_step PbPushPull.step) fs _ _ h
  have h2 := fold_bytes PbPushPull.step (fun m => some m.userData) id 3
    (by fold_step PbPushPull.step) fs _ _ h
  obtain ⟨ss, h3, h4⟩ := list_fold_states PbPushPull.step (·.states) 2 (by
    intro m f m' h
    unfold PbPushPull.step at h
    obtain ⟨k, w⟩ := f
    dsimp only at h
    split at h <;> simp only [Option.map_eq_some_iff, Option.some.injEq, reduceCtorEq] at h
    · subst h; left; exact ⟨rfl, by simp [elements]⟩
    · obtain ⟨s, h1, h⟩ := h; subst h; right; exact ⟨_, _, rfl, h1, rfl⟩
    · subst h; left; exact ⟨rfl, by simp [elements]⟩
    · subst h; left; refine ⟨rfl, ?_⟩; cases w <;> simp_all [elements]) fs _ _ h
  refine ⟨?_, ?_, ?_⟩
  · cases hl : lastVarint fs 1 <;> simp [hl] at h1 ⊢ <;> exact h1
  · cases hl : lastBytes fs 3 <;> simp [hl] at h2 ⊢ <;> exact h2
  · have : m.states = ss := by simpa using h3
    rw [this]; exact h4

end Verif
