import Verif.Model.Keyring
/- Helper lemmas for C12. -/
namespace Verif.Keyring

theorem position_some {key : Bytes} : ∀ {l : List SecretKey} {i : Nat}, position key l = some i →
    ∃ pre k post, l = pre ++ k :: post ∧ pre.length = i ∧ k.bytes = key ∧ ∀ k' ∈ pre, k'.bytes ≠ key := by
  intro l
  induction l with
  | nil => intro i h; simp [position] at h
  | cons s ss ih =>
    intro i h
    simp only [position] at h
    split at h
    · rename_i hs
      injection h with h; subst h
      exact ⟨[], s, ss, rfl, rfl, hs, by simp⟩
    · rename_i hs
      cases hp : position key ss with
      | none => rw [hp] at h; simp at h
      | some j =>
        rw [hp] at h
        simp at h
        subst h
        obtain ⟨pre, k, post, e, hl, hb, hne⟩ := ih hp
        refine ⟨s :: pre, k, post, by rw [e]; rfl, by simp [hl], hb, ?_⟩
        intro k' hk'
        rcases List.mem_cons.1 hk' with rfl | hm
        · exact hs
        · exact hne k' hm

theorem position_none {key : Bytes} : ∀ {l : List SecretKey}, position key l = none ↔
    ∀ k ∈ l, k.bytes ≠ key := by
  intro l
  induction l with
  | nil => simp [position]
  | cons s ss ih =>
    simp only [position]
    split
    · rename_i hs; simp [hs]
    · rename_i hs
      simp only [Option.map_eq_none_iff, ih, List.mem_cons, forall_eq_or_imp]
      exact ⟨fun h => ⟨hs, h⟩, fun h => h.2⟩

theorem eraseIdx_split (pre : List SecretKey) (k : SecretKey) (post : List SecretKey) :
    (pre ++ k :: post).eraseIdx pre.length = pre ++ post := by
  induction pre with
  | nil => rfl
  | cons a as ih => simpa using ih

theorem getElem?_split (pre : List SecretKey) (k : SecretKey) (post : List SecretKey) :
    (pre ++ k :: post)[pre.length]? = some k := by simp

theorem removeSecondary_ok {r r' : Keyring} {key : Bytes} (h : r.removeSecondary key = .ok r') :
    r.primary.bytes ≠ key ∧ ∃ pre k post, r.secondaries = pre ++ k :: post ∧ k.bytes = key ∧
        (∀ k' ∈ pre, k'.bytes ≠ key) ∧ r' = ⟨r.primary, pre ++ post⟩ := by
  unfold removeSecondary at h
  split at h
  · cases h
  · rename_i hp
    split at h
    · cases h
    · rename_i pos hpos
      injection h with h; subst h
      obtain ⟨pre, k, post, e, hl, hb, hne⟩ := position_some hpos
      refine ⟨hp, pre, k, post, e, hb, hne, ?_⟩
      rw [e, ← hl, eraseIdx_split]

theorem removeSecondary_err {r : Keyring} {key : Bytes} {e : KeyringError}
    (h : r.removeSecondary key = .error e) :
    (e = .isPrimary ∧ r.primary.bytes = key) ∨
      (e = .notInRing ∧ ∀ k ∈ r.keys, k.bytes ≠ key) := by
  unfold removeSecondary at h
  split at h
  · rename_i hp; injection h with h; exact .inl ⟨h.symm, hp⟩
  · rename_i hp
    split at h
    · rename_i hpos
      injection h with h
      refine .inr ⟨h.symm, ?_⟩
      intro k hk
      rcases List.mem_cons.1 hk with rfl | hk
      · exact hp
      · exact position_none.1 hpos k hk
    · cases h

theorem promote_ok {r r' : Keyring} {key : Bytes} (h : r.promote key = .ok r') :
    (r.primary.bytes = key ∧ r' = r) ∨
    (r.primary.bytes ≠ key ∧ ∃ pre k post, r.secondaries = pre ++ k :: post ∧ k.bytes = key ∧
        (∀ k' ∈ pre, k'.bytes ≠ key) ∧ r' = ⟨k, r.primary :: (pre ++ post)⟩) := by
  unfold promote at h
  split at h
  · rename_i hp; injection h with h; exact .inl ⟨hp, h.symm⟩
  · rename_i hp
    split at h
    · cases h
    · rename_i pos hpos
      obtain ⟨pre, k, post, e, hl, hb, hne⟩ := position_some hpos
      rw [e, ← hl, getElem?_split, eraseIdx_split] at h
      simp only at h
      injection h with h; subst h
      exact .inr ⟨hp, pre, k, post, e, hb, hne, rfl⟩

theorem promote_err {r : Keyring} {key : Bytes} {e : KeyringError} (h : r.promote key = .error e) :
    e = .notInRing ∧ ∀ k ∈ r.keys, k.bytes ≠ key := by
  unfold promote at h
  split at h
  · cases h
  · rename_i hp
    split at h
    · rename_i hpos
      injection h with h
      refine ⟨h.symm, ?_⟩
      intro k hk
      rcases List.mem_cons.1 hk with rfl | hk
      · exact hp
      · exact position_none.1 hpos k hk
    · rename_i pos hpos
      obtain ⟨pre, k, post, e, hl, hb, hne⟩ := position_some hpos
      rw [e, ← hl, getElem?_split] at h
      simp at h

theorem promote_perm {r r' : Keyring} {key : Bytes} (h : r.promote key = .ok r') :
    r'.keys.Perm r.keys := by
  rcases promote_ok h with ⟨_, rfl⟩ | ⟨_, pre, k, post, e, _, _, rfl⟩
  · exact .refl _
  · simp only [keys, e]
    refine (List.Perm.swap _ _ _).trans (.cons _ ?_)
    exact List.perm_middle.symm

theorem remove_perm {r r' : Keyring} {key : Bytes} (h : r.removeSecondary key = .ok r') :
    ∃ k, k.bytes = key ∧ k ≠ r.primary ∧ r'.primary = r.primary ∧ r.keys.Perm (k :: r'.keys) := by
  obtain ⟨hp, pre, k, post, e, hb, hne, rfl⟩ := removeSecondary_ok h
  refine ⟨k, hb, ?_, rfl, ?_⟩
  · rintro rfl; exact hp hb
  · simp only [keys, e]
    refine (List.Perm.cons _ List.perm_middle).trans (.swap _ _ _)

theorem insert_keys (r : Keyring) (k : SecretKey) :
    (r.insertSecondary k).keys = if k ∈ r.keys then r.keys else r.keys ++ [k] := by
  unfold insertSecondary keys
  by_cases h1 : r.primary = k
  · simp [h1]
  · by_cases h2 : k ∈ r.secondaries
    · simp [h1, h2]
    · simp [h1, h2, Ne.symm h1]

theorem insert_primary (r : Keyring) (k : SecretKey) : (r.insertSecondary k).primary = r.primary := by
  unfold insertSecondary
  split
  · rfl
  · split <;> rfl

theorem insert_nodup {r : Keyring} (h : r.keys.Nodup) (k : SecretKey) :
    (r.insertSecondary k).keys.Nodup := by
  rw [insert_keys]
  split
  · exact h
  · rename_i hk
    rw [List.nodup_append]
    refine ⟨h, by simp, ?_⟩
    intro a ha b hb
    simp at hb
    subst hb
    rintro rfl
    exact hk ha

theorem apply_nodup {r : Keyring} (h : r.keys.Nodup) (op : KeyringOp) : (op.apply r).keys.Nodup := by
  cases op with
  | insert k => exact insert_nodup h k
  | remove key =>
    simp only [KeyringOp.apply]
    cases hr : r.removeSecondary key with
    | ok r' =>
      obtain ⟨k, _, _, _, hp⟩ := remove_perm hr
      exact (List.nodup_cons.1 (hp.nodup_iff.1 h)).2
    | error e => exact h
  | promote key =>
    simp only [KeyringOp.apply]
    cases hr : r.promote key with
    | ok r' => exact (promote_perm hr).nodup_iff.2 h
    | error e => exact h

theorem foldl_nodup {r : Keyring} (h : r.keys.Nodup) (ops : List KeyringOp) :
    (ops.foldl KeyringOp.apply r).keys.Nodup := by
  induction ops generalizing r with
  | nil => exact h
  | cons op ops ih => exact ih (apply_nodup h op)

theorem withSecondaries_eq (p : SecretKey) (ss : List SecretKey) :
    withSecondaries p ss = (ss.map KeyringOp.insert).foldl KeyringOp.apply (new p) := by
  unfold withSecondaries
  generalize new p = r
  induction ss generalizing r with
  | nil => rfl
  | cons s ss ih => exact ih (r.insertSecondary s)

end Verif.Keyring
