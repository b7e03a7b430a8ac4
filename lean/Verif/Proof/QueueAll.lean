import Verif.Model.Broadcast
/-
A property of the entries of a broadcast queue is kept by every operation, and drains stay within their limit,
whatever the state of the id counter.
-/
namespace Verif
variable {Id B Msg : Type} [DecidableEq Id]

/-- Every queued entry satisfies `P` of its recorded length and its broadcast. -/
def BQueue.All (P : Nat → B → Prop) (s : BQueue Id B) : Prop := ∀ x ∈ s.q, P x.msgLen x.broadcast

namespace BQueue
variable {P : Nat → B → Prop} {ops : BroadcastOps Id B Msg}

omit [DecidableEq Id] in
theorem mem_setInsert {q : List (LB B)} {x y : LB B} (h : y ∈ (setInsert q x).1) : y = x ∨ y ∈ q := by
  induction q with
  | nil => simpa [setInsert] using h
  | cons z q ih =>
    unfold setInsert at h
    split at h
    · exact .inr h
    · split at h
      · simpa using h
      · dsimp only at h
        rcases List.mem_cons.1 h with h | h
        · exact .inr (by simp [h])
        · rcases ih h with h | h
          · exact .inl h
          · exact .inr (List.mem_cons_of_mem _ h)

theorem All.insertInto {s : BQueue Id B} (h : s.All P) (x : LB B) (hx : P x.msgLen x.broadcast) :
    (insertInto ops s x).All P := by
  have hq : (BQueue.insertInto ops s x).q = (setInsert s.q x).1 := by
    unfold BQueue.insertInto; dsimp only; split <;> rfl
  intro y hy
  rw [hq] at hy
  rcases mem_setInsert hy with rfl | hy
  · exact hx
  · exact h _ hy

theorem All.foldInsert {l : List (LB B)} {s : BQueue Id B} (h : s.All P) (hl : ∀ x ∈ l, P x.msgLen x.broadcast) :
    (l.foldl (BQueue.insertInto ops) s).All P := by
  induction l generalizing s with
  | nil => exact h
  | cons x l ih =>
    rw [List.foldl_cons]
    exact ih (h.insertInto x (hl x (List.mem_cons_self ..))) (fun y hy => hl y (List.mem_cons_of_mem _ hy))

omit [DecidableEq Id] in
theorem All.sub {s s' : BQueue Id B} (h : s.All P) (hs : ∀ x ∈ s'.q, x ∈ s.q) : s'.All P := fun x hx => h x (hs x hx)

omit [DecidableEq Id] in
theorem All.resetIdle {s : BQueue Id B} (h : s.All P) : s.resetIdle.All P := by
  unfold BQueue.resetIdle; split <;> exact h

theorem All.removeItem {s : BQueue Id B} (h : s.All P) (x : LB B) : (removeItem ops s x).All P :=
  h.sub (fun _ hy => (List.mem_filter.1 hy).1)

theorem All.foldRemove {l : List (LB B)} {s : BQueue Id B} (h : s.All P) : (l.foldl (BQueue.removeItem ops) s).All P := by
  induction l generalizing s with
  | nil => exact h
  | cons x l ih => rw [List.foldl_cons]; exact ih (h.removeItem x)

theorem All.invalidate {s : BQueue Id B} (h : s.All P) (b : B) : (invalidate ops s b).1.All P := by
  unfold BQueue.invalidate
  split
  · split
    · exact (All.sub (s' := { s with m := _, q := _ }) h (fun _ hy => (List.mem_filter.1 hy).1)).resetIdle
    · exact h
  · split
    · exact (h.foldRemove).resetIdle
    · exact h

theorem All.queueBroadcast {s : BQueue Id B} (h : s.All P) (b : B) (hb : P (ops.encodedLen (ops.message b)) b) :
    (queueBroadcast ops s b).1.All P := by
  unfold BQueue.queueBroadcast
  dsimp only
  apply All.insertInto
  · exact fun x hx => h.invalidate (ops := ops) b x hx
  · exact hb

omit [DecidableEq Id] in
theorem candidate_mem {q : List (LB B)} {t f : Nat} {x : LB B} (h : candidate q t f = some x) : x ∈ q ∧ x.msgLen ≤ f := by
  unfold candidate at h
  dsimp only at h
  have h1 := List.mem_of_find?_eq_some h
  have h2 := List.find?_some h
  exact ⟨(List.mem_filter.1 h1).1, by simpa using h2⟩

/-- A drain so far: what is left, chosen and put aside satisfies `P`, and the charge is exact and within the limit. -/
structure DrainAll (P : Nat → B → Prop) (overhead limit : Nat) (d : Drain Id B) : Prop where
  left : d.s.All P
  sent : ∀ x ∈ d.sent, P x.msgLen x.broadcast
  back : ∀ x ∈ d.reinsert, P x.msgLen x.broadcast
  used : d.used = (d.sent.map (fun x => x.msgLen + overhead)).sum
  le : d.used ≤ limit

theorem drainLoop_all {tl overhead limit mx fuel tr : Nat} {d : Drain Id B} (h : DrainAll P overhead limit d) :
    DrainAll P overhead limit (drainLoop ops tl overhead limit mx fuel tr d) := by
  induction fuel generalizing tr d with
  | zero => exact h
  | succ n ih =>
    unfold drainLoop
    split
    · dsimp only
      split
      · exact h
      · rename_i hfree
        split
        · rename_i keep hk
          obtain ⟨h1, h2⟩ := candidate_mem hk
          refine ih ⟨h.left.removeItem keep, ?_, ?_, ?_, ?_⟩
          · intro x hx
            rcases List.mem_append.1 hx with hx | hx
            · exact h.sent x hx
            · rw [List.mem_singleton.1 hx]; exact h.left _ h1
          · intro x hx
            simp only [drainPick] at hx
            split at hx
            · exact h.back x hx
            · rcases List.mem_append.1 hx with hx | hx
              · exact h.back x hx
              · rw [List.mem_singleton.1 hx]; exact h.left keep h1
          · simp only [drainPick, List.map_append, List.sum_append, h.used, List.map_cons, List.map_nil, List.sum_cons,
              List.sum_nil, Nat.add_zero]
          · have := h.le
            simp only [drainPick]
            omega
        · exact ih h
    · exact h

theorem takeMeasured_all {s : BQueue Id B} (h : s.All P) (n overhead limit : Nat) :
    DrainAll P overhead limit (s.takeMeasured ops n overhead limit) := by
  unfold takeMeasured
  split
  · exact ⟨h, by simp, by simp, rfl, Nat.zero_le _⟩
  · dsimp only
    have hd := drainLoop_all (ops := ops) (tl := retransmitLimit s.mult n) (mx := (transmitRange s.q).2)
      (fuel := s.q.length + ((transmitRange s.q).2 + 1 - (transmitRange s.q).1)) (tr := (transmitRange s.q).1)
      (d := { s, sent := [], used := 0, reinsert := [], finished := [] }) (overhead := overhead) (limit := limit)
      (P := P) ⟨h, by simp, by simp, rfl, Nat.zero_le _⟩
    exact ⟨(All.foldInsert hd.left hd.back).resetIdle, hd.sent, by simp, hd.used, hd.le⟩

omit [DecidableEq Id] in
theorem oneLoop_mem {q : List (LB B)} {limit fuel tr : Nat} {x : LB B} (h : oneLoop q limit fuel tr = some x) :
    x ∈ q ∧ x.msgLen ≤ limit := by
  induction fuel generalizing tr with
  | zero => cases h
  | succ n ih =>
    unfold oneLoop at h
    split at h
    · cases h; rename_i hk; exact candidate_mem hk
    · exact ih h

theorem takeOne_all {s : BQueue Id B} (h : s.All P) (n limit : Nat) :
    (s.takeOne ops n limit).s.All P ∧ (s.takeOne ops n limit).sent.length ≤ 1 ∧
      ∀ x ∈ (s.takeOne ops n limit).sent, P x.msgLen x.broadcast ∧ x.msgLen ≤ limit := by
  unfold takeOne
  split
  · exact ⟨h, by simp, by simp⟩
  · dsimp only
    split
    · exact ⟨h, by simp, by simp⟩
    · rename_i keep hk
      obtain ⟨h1, h2⟩ := oneLoop_mem hk
      split
      · exact ⟨(h.removeItem keep).resetIdle, by simp, by simpa using ⟨h keep h1, h2⟩⟩
      · refine ⟨((h.removeItem (ops := ops) keep).insertInto { keep with transmits := keep.transmits + 1 } ?_).resetIdle, by simp, by simpa using ⟨h keep h1, h2⟩⟩
        exact h keep h1

omit [DecidableEq Id] in
theorem new_all (mult : Nat) : (BQueue.new mult : BQueue Id B).All P := by intro x hx; cases hx

end BQueue

namespace UserBroadcasts
variable {P : Nat → B → Prop} {ops : BroadcastOps Id B Msg}

/-- Every entry of every tier satisfies `P`. -/
def All (P : Nat → B → Prop) (u : UserBroadcasts Id B) : Prop := ∀ t ∈ u.tiers, t.All P

omit [DecidableEq Id] in
theorem new_all (n mult : Nat) : (UserBroadcasts.new n mult : UserBroadcasts Id B).All P := by
  intro t ht
  rw [UserBroadcasts.new, List.mem_replicate] at ht
  rw [ht.2]
  exact BQueue.new_all mult

omit [DecidableEq Id] in
theorem All.reset {u : UserBroadcasts Id B} : u.reset.1.All P := by
  intro t ht
  simp only [UserBroadcasts.reset, List.mem_map] at ht
  obtain ⟨t', _, rfl⟩ := ht
  intro x hx
  cases hx

theorem All.queueRanked {u u' : UserBroadcasts Id B} {fin : List (LB B)} (h : u.All P) (rank : Nat) (b : B)
    (hb : P (ops.encodedLen (ops.message b)) b) (hq : u.queueRanked ops rank b = some (u', fin)) : u'.All P := by
  unfold UserBroadcasts.queueRanked at hq
  dsimp only at hq
  split at hq
  · cases hq
  · rename_i t ht
    cases hq
    intro t' ht'
    rcases List.mem_or_eq_of_mem_set ht' with h1 | h1
    · exact h _ h1
    · rw [h1]
      exact (h t (List.mem_of_getElem? ht)).queueBroadcast b hb

theorem takeLoop_all {n overhead limit : Nat} {ts : List (BQueue Id B)} (h : ∀ t ∈ ts, t.All P) {used : Nat} :
    (∀ t ∈ (takeLoop ops n overhead limit ts used).1, t.All P) ∧
    (∀ x ∈ (takeLoop ops n overhead limit ts used).2.1.flatten, P x.msgLen x.broadcast) ∧
    (takeLoop ops n overhead limit ts used).2.2.1 =
      used + ((takeLoop ops n overhead limit ts used).2.1.flatten.map (fun x => x.msgLen + overhead)).sum ∧
    (used ≤ limit → (takeLoop ops n overhead limit ts used).2.2.1 ≤ limit) := by
  induction ts generalizing used with
  | nil => exact ⟨by simp [takeLoop], by simp [takeLoop], by simp [takeLoop], by simp [takeLoop]⟩
  | cons t ts ih =>
    unfold takeLoop
    split
    · exact ⟨h, by simp, by simp, fun h => h⟩
    · rename_i hl
      have hd := BQueue.takeMeasured_all (ops := ops) (h t (List.mem_cons_self ..)) n overhead (limit - used)
      obtain ⟨h1, h2, h3, h4⟩ := ih (fun t ht => h t (List.mem_cons_of_mem _ ht))
        (used := used + (t.takeMeasured ops n overhead (limit - used)).used)
      dsimp only
      refine ⟨?_, ?_, ?_, ?_⟩
      · intro t' ht'
        rcases List.mem_cons.1 ht' with rfl | ht'
        · exact hd.left
        · exact h1 t' ht'
      · intro x hx
        rw [List.flatten_cons] at hx
        rcases List.mem_append.1 hx with hx | hx
        · exact hd.sent x hx
        · exact h2 x hx
      · rw [List.flatten_cons, List.map_append, List.sum_append, ← hd.used, ← Nat.add_assoc]
        exact h3
      · intro _
        refine h4 ?_
        have := hd.le
        omega

theorem takeMeasured_all {u : UserBroadcasts Id B} (h : u.All P) (n overhead limit : Nat) :
    (u.takeMeasured ops n overhead limit).1.All P ∧
    (∀ x ∈ (u.takeMeasured ops n overhead limit).2.1.flatten, P x.msgLen x.broadcast) ∧
    ((u.takeMeasured ops n overhead limit).2.1.flatten.map (fun x => x.msgLen + overhead)).sum ≤ limit := by
  obtain ⟨h1, h2, h3, h4⟩ := takeLoop_all (ops := ops) (n := n) (overhead := overhead) (limit := limit) h (used := 0)
  refine ⟨h1, h2, ?_⟩
  have := h4 (Nat.zero_le _)
  rw [h3] at this
  simpa [takeMeasured] using this

end UserBroadcasts
end Verif
