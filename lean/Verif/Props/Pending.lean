import Verif.Proof.Pending

/-!
C123: whoever waits at the reactor driver for a join, a reliable send or a leave is answered once, when what the call
started is finished, and told what came of it. Stated over every history: any commands and events before and after, of
any number of callers.

Throughout, a caller is one call (`c` calls nowhere else), an exchange belongs to one call, and an exchange finishes
once.
-/

namespace Verif.Props

open Verif.Pending

variable {A : Type}

/-- C123. A join is answered when the last of its exchanges has finished, once and not before: with the peers of those
that succeeded, in the order they did, or as failed when none did. -/
theorem C123_join (pre post : List (Op A)) (c requested : Nat) (eids : List Nat) (hr : requested ≠ 0)
    (h0 : eids ≠ []) (hpre : Op.stop ∉ pre) (hpost : Op.stop ∉ post) (hc : c ∉ callers pre ∧ c ∉ callers post)
    (he : ∀ e ∈ eids, e ∉ joinStarted pre ∧ e ∉ joinStarted post) (hn : (syncsDone post).Nodup) :
    answersTo c (({} : Driver A).runs (pre ++ .join c requested true eids :: post)).2 =
      if ∀ e ∈ eids, e ∈ syncsDone post then
        [if reached eids post = [] then .joinFailed requested else .joined (reached eids post)]
      else [] := by
  rw [join_answers pre post c requested eids hpre hr h0 hc.1 hc.2 (fun e h => (he e h).1) fun e h => (he e h).2]
  have := joinNews_append eids ⟨[], requested⟩ post [] hpost hn h0
  rw [List.append_nil] at this
  rw [this]
  simp [joinReply, joinNews]

/-- C123. A join whose exchanges have not all finished when the driver stops is told so, with the peers it has reached
up to then. -/
theorem C123_join_stopped (pre mid post : List (Op A)) (c requested : Nat) (eids : List Nat) (hr : requested ≠ 0)
    (h0 : eids ≠ []) (hpre : Op.stop ∉ pre) (hmid : Op.stop ∉ mid)
    (hc : c ∉ callers pre ∧ c ∉ callers (mid ++ .stop :: post))
    (he : ∀ e ∈ eids, e ∉ joinStarted pre ∧ e ∉ joinStarted (mid ++ .stop :: post)) (hn : (syncsDone mid).Nodup) :
    answersTo c (({} : Driver A).runs (pre ++ .join c requested true eids :: (mid ++ .stop :: post))).2 =
      if ∀ e ∈ eids, e ∈ syncsDone mid then
        [if reached eids mid = [] then .joinFailed requested else .joined (reached eids mid)]
      else [.shutdown (reached eids mid)] := by
  rw [join_answers pre _ c requested eids hpre hr h0 hc.1 hc.2 (fun e h => (he e h).1) fun e h => (he e h).2,
    joinNews_append eids ⟨[], requested⟩ mid _ hmid hn h0]
  simp [joinReply, joinNews]

/-- C123. A join that starts no exchange does not wait. -/
theorem C123_join_now (pre post : List (Op A)) (c requested : Nat) (running : Bool) (eids : List Nat)
    (hpre : Op.stop ∉ pre) (hc : c ∉ callers pre ∧ c ∉ callers post)
    (h : running = false ∨ requested = 0 ∨ eids = []) :
    answersTo c (({} : Driver A).runs (pre ++ .join c requested running eids :: post)).2 =
      [if running = false then .notRunning else if requested = 0 then .joined [] else .joinFailed requested] := by
  refine answered_now pre post _ c _ hc.1 hc.2 ?_
  have h1 : (({} : Driver A).runs pre).1.stopped = false := (runs_held ({} : Driver A) pre hpre).1
  cases running <;> by_cases hr : requested = 0 <;> simp_all [Driver.step]

/-- C123. A send is answered when the last of its exchanges has finished, once and not before: with success exactly when
every payload got an exchange and none of them failed. -/
theorem C123_send (pre post : List (Op A)) (c payloads : Nat) (eids : List Nat) (hl : eids.length ≤ payloads)
    (h0 : eids ≠ []) (hpre : Op.stop ∉ pre) (hpost : Op.stop ∉ post) (hc : c ∉ callers pre ∧ c ∉ callers post)
    (he : ∀ e ∈ eids, e ∉ sendStarted pre ∧ e ∉ sendStarted post) (hn : (sendsDone post).Nodup) :
    (¬ (∀ e ∈ eids, e ∈ sendsDone post) →
      answersTo c (({} : Driver A).runs (pre ++ .send c payloads true eids :: post)).2 = []) ∧
    ((∀ e ∈ eids, e ∈ sendsDone post) →
      (payloads = eids.length ∧ (∀ e ∈ eids, Op.userMessage e false ∉ post) →
        answersTo c (({} : Driver A).runs (pre ++ .send c payloads true eids :: post)).2 = [.sent]) ∧
      (¬ (payloads = eids.length ∧ ∀ e ∈ eids, Op.userMessage e false ∉ post) →
        answersTo c (({} : Driver A).runs (pre ++ .send c payloads true eids :: post)).2 = [.sendFailed])) := by
  rw [send_answers pre post c payloads eids hpre hl h0 hc.1 hc.2 (fun e h => (he e h).1) fun e h => (he e h).2]
  have := sendNews_append eids (payloads - eids.length) post [] hpost hn h0
  rw [List.append_nil] at this
  rw [this]
  refine ⟨fun h => by rw [if_neg h]; rfl, fun h => ⟨fun hok => ?_, fun hno => ?_⟩⟩
  · have hf := (failures_zero eids post).mpr hok.2
    rw [if_pos h, hf]
    simp [sendReply, hok.1]
  · rw [if_pos h]
    have : payloads - eids.length + failures eids post > 0 := by
      rcases Nat.eq_zero_or_pos (failures eids post) with hz | hz
      · have hp : payloads ≠ eids.length := fun hp => hno ⟨hp, (failures_zero eids post).mp hz⟩
        omega
      · omega
    simp only [sendReply, if_pos this]

/-- C123. A send whose exchanges have not all finished when the driver stops is told that. -/
theorem C123_send_stopped (pre mid post : List (Op A)) (c payloads : Nat) (eids : List Nat)
    (hl : eids.length ≤ payloads) (h0 : eids ≠ []) (hpre : Op.stop ∉ pre) (hmid : Op.stop ∉ mid)
    (hc : c ∉ callers pre ∧ c ∉ callers (mid ++ .stop :: post))
    (he : ∀ e ∈ eids, e ∉ sendStarted pre ∧ e ∉ sendStarted (mid ++ .stop :: post)) (hn : (sendsDone mid).Nodup)
    (hopen : ∃ e ∈ eids, e ∉ sendsDone mid) :
    answersTo c (({} : Driver A).runs (pre ++ .send c payloads true eids :: (mid ++ .stop :: post))).2 =
      [.shutdown []] := by
  rw [send_answers pre _ c payloads eids hpre hl h0 hc.1 hc.2 (fun e h => (he e h).1) fun e h => (he e h).2,
    sendNews_append eids _ mid _ hmid hn h0, if_neg]
  · rfl
  · obtain ⟨e, h1, h2⟩ := hopen
    exact fun h => h2 (h e h1)

/-- C123. A send that starts no exchange does not wait, and counts as success only if it had nothing to send. -/
theorem C123_send_now (pre post : List (Op A)) (c payloads : Nat) (running : Bool) (eids : List Nat)
    (hpre : Op.stop ∉ pre) (hc : c ∉ callers pre ∧ c ∉ callers post)
    (h : running = false ∨ payloads = 0 ∨ eids = []) :
    answersTo c (({} : Driver A).runs (pre ++ .send c payloads running eids :: post)).2 =
      [if running = false then .notRunning else if payloads = 0 then .sent else .sendFailed] := by
  refine answered_now pre post _ c _ hc.1 hc.2 ?_
  have h1 : (({} : Driver A).runs pre).1.stopped = false := (runs_held ({} : Driver A) pre hpre).1
  cases running <;> by_cases hr : payloads = 0 <;> simp_all [Driver.step]

/-- C123. A leave of a running node is answered once: when the node has left, or when the driver stops before. -/
theorem C123_leave (pre mid post : List (Op A)) (c : Nat) (last : Op A) (hlast : last = .left ∨ last = .stop)
    (hpre : Op.stop ∉ pre) (hmid : Op.stop ∉ mid ∧ Op.left ∉ mid) (hc : c ∉ callers pre)
    (hc' : c ∉ callers mid ∧ c ∉ callers post) :
    answersTo c (({} : Driver A).runs (pre ++ .leave c true true :: mid)).2 = [] ∧
    answersTo c (({} : Driver A).runs (pre ++ .leave c true true :: (mid ++ last :: post))).2 =
      [if last matches .left then .left else .shutdown []] := by
  obtain ⟨h1, h2⟩ := leave_parks pre c true true hpre hc (.inr ⟨rfl, rfl⟩)
  obtain ⟨h3, h4⟩ := leaveHeld_runs c _ mid h1 hc'.1 hmid.1 hmid.2
  rw [runs_around _ _ _ c hc, runs_around _ _ _ c hc, h2]
  refine ⟨h4, ?_⟩
  rw [runs_append, answersTo_append, h4]
  exact leave_ends c _ post last h3 hlast hc'.2

/-- C123. A second leave, issued while one waits, is answered with it. -/
theorem C123_leave_joins (pre mid mid' post : List (Op A)) (c c' : Nat) (running ok : Bool) (last : Op A)
    (hlast : last = .left ∨ last = .stop) (hpre : Op.stop ∉ pre) (hmid : Op.stop ∉ mid ∧ Op.left ∉ mid)
    (hmid' : Op.stop ∉ mid' ∧ Op.left ∉ mid') (hc : c ∉ callers pre ∧ c ∉ callers mid)
    (hc' : c' ∉ callers (pre ++ .leave c true true :: mid) ∧ c' ∉ callers mid' ∧ c' ∉ callers post) :
    answersTo c' (({} : Driver A).runs
        ((pre ++ .leave c true true :: mid) ++ .leave c' running ok :: (mid' ++ last :: post))).2 =
      [if last matches .left then .left else .shutdown []] := by
  obtain ⟨h1, _⟩ := leave_parks pre c true true hpre hc.1 (.inr ⟨rfl, rfl⟩)
  obtain ⟨h3, _⟩ := leaveHeld_runs c _ mid h1 hc.2 hmid.1 hmid.2
  have hne : (({} : Driver A).runs (pre ++ .leave c true true :: mid)).1.leavers ≠ [] := by
    rw [runs_append]
    intro h
    have := h3.once
    simp only [Driver.runs] at h
    rw [h] at this
    simp at this
  have hst : Op.stop ∉ pre ++ .leave c true true :: mid := by
    simp [hpre, hmid.1]
  obtain ⟨k1, k2⟩ := leave_parks _ c' running ok hst hc'.1 (.inl hne)
  obtain ⟨k3, k4⟩ := leaveHeld_runs c' _ mid' k1 hc'.2.1 hmid'.1 hmid'.2
  rw [runs_around _ _ _ c' hc'.1, k2, runs_append, answersTo_append, k4]
  exact leave_ends c' _ post last k3 hlast hc'.2.2

/-- C123. A leave with no other waiting is answered at once if there is nothing to wait for: the node does not run, or
leaving fails. No other waits if there was none, or none since the node left. -/
theorem C123_leave_now (pre since post : List (Op A)) (c : Nat) (running ok : Bool)
    (hpre : pre = [] ∨ ∃ l, pre = l ++ [.left]) (hst : Op.stop ∉ pre ++ since)
    (hsince : ∀ k r o, Op.leave k r o ∉ since) (hc : c ∉ callers (pre ++ since) ∧ c ∉ callers post)
    (h : running = false ∨ ok = false) :
    answersTo c (({} : Driver A).runs ((pre ++ since) ++ .leave c running ok :: post)).2 =
      [if ok then .left else .leaveFailed] := by
  refine answered_now (pre ++ since) post _ c _ hc.1 hc.2 ?_
  have h1 : (({} : Driver A).runs (pre ++ since)).1.stopped = false := (runs_held ({} : Driver A) _ hst).1
  have h2 : (({} : Driver A).runs (pre ++ since)).1.leavers = [] := by
    rw [runs_append]
    refine leavers_none _ since ?_ hsince
    rcases hpre with rfl | ⟨l, rfl⟩
    · rfl
    · rw [runs_append]; rfl
  cases running <;> cases ok <;> simp_all [Driver.step]

/-- C123. Whatever is asked of a stopped driver is refused at once. -/
theorem C123_after_stop (pre mid post : List (Op A)) (c : Nat) (op : Op A) (hop : callers [op] = [c])
    (hc : c ∉ callers (pre ++ .stop :: mid) ∧ c ∉ callers post) :
    answersTo c (({} : Driver A).runs ((pre ++ .stop :: mid) ++ op :: post)).2 = [.shutdown []] := by
  refine answered_now (pre ++ .stop :: mid) post _ c _ hc.1 hc.2 ?_
  have h1 : (({} : Driver A).runs (pre ++ .stop :: mid)).1.stopped = true := by
    rw [runs_append]
    exact stays_stopped _ mid rfl
  cases op <;> simp_all [Driver.step, callers]

/-! ### Cases that meet the hypotheses -/

private def pre : List (Op String) := [.join 1 1 true [10], .send 2 2 true [20, 21]]

private def post : List (Op String) :=
  [.pushPull 12 "b" true, .userMessage 20 true, .pushPull 10 "x" false, .pushPull 11 "a" true, .userMessage 21 false,
    .leave 4 true true, .pushPull 13 "c" false, .left]

/-- Three seeds, one of which fails: the join of 3 is told of the other two, in the order they answered. -/
example :
    answersTo 3 (({} : Driver String).runs (pre ++ .join 3 3 true [11, 12, 13] :: post)).2 = [.joined ["b", "a"]] := by
  rw [C123_join pre post 3 3 [11, 12, 13] (by decide) (by decide) (by decide) (by decide) (by decide) (by decide)
    (by decide)]
  decide

/-- Before its last exchange has finished it hears nothing; if the driver stops there, it hears whom it reached. -/
example :
    answersTo 3 (({} : Driver String).runs (pre ++ .join 3 3 true [11, 12, 13] :: post.take 5)).2 = [] ∧
    answersTo 3 (({} : Driver String).runs (pre ++ .join 3 3 true [11, 12, 13] :: (post.take 5 ++ .stop :: []))).2 =
      [.shutdown ["b", "a"]] := by
  rw [C123_join pre _ 3 3 [11, 12, 13] (by decide) (by decide) (by decide) (by decide) (by decide) (by decide)
    (by decide), C123_join_stopped pre _ [] 3 3 [11, 12, 13] (by decide) (by decide) (by decide) (by decide) (by decide)
    (by decide) (by decide)]
  decide

/-- Two payloads, both sent: success. With a third that got no exchange, or with one that fails: none. -/
example :
    answersTo 5 (({} : Driver String).runs ([] ++ .send 5 2 true [20, 21] ::
      [.userMessage 20 true, .userMessage 21 true])).2 = [.sent] ∧
    answersTo 5 (({} : Driver String).runs ([] ++ .send 5 3 true [20, 21] ::
      [.userMessage 20 true, .userMessage 21 true])).2 = [.sendFailed] ∧
    answersTo 2 (({} : Driver String).runs ([] ++ .send 2 2 true [20, 21] :: post)).2 = [.sendFailed] :=
  ⟨((C123_send [] _ 5 2 [20, 21] (by decide) (by decide) (by decide) (by decide) (by decide) (by decide)
      (by decide)).2 (by decide)).1 (by decide),
   ((C123_send [] _ 5 3 [20, 21] (by decide) (by decide) (by decide) (by decide) (by decide) (by decide)
      (by decide)).2 (by decide)).2 (by decide),
   ((C123_send [] post 2 2 [20, 21] (by decide) (by decide) (by decide) (by decide) (by decide) (by decide)
      (by decide)).2 (by decide)).2 (by decide)⟩

example :
    answersTo 2 (({} : Driver String).runs ([] ++ .send 2 2 true [20, 21] :: ([.userMessage 20 true] ++ .stop :: []))).2 =
      [.shutdown []] :=
  C123_send_stopped [] _ [] 2 2 [20, 21] (by decide) (by decide) (by decide) (by decide) (by decide) (by decide)
    (by decide) (by decide)

/-- Every dial of a join, or of a send, fails before there is an exchange. -/
example :
    answersTo 3 (({} : Driver String).runs (pre ++ .join 3 2 true [] :: post)).2 = [.joinFailed 2] ∧
    answersTo 3 (({} : Driver String).runs (pre ++ .send 3 2 true [] :: post)).2 = [.sendFailed] :=
  ⟨C123_join_now pre post 3 2 true [] (by decide) (by decide) (by decide),
   C123_send_now pre post 3 2 true [] (by decide) (by decide) (by decide)⟩

/-- Two leaves, the second when the node no longer runs: both are answered when it has left. -/
example :
    answersTo 4 (({} : Driver String).runs (pre ++ .leave 4 true true :: ([.leave 6 false true] ++ .left :: []))).2 =
      [.left] ∧
    answersTo 6 (({} : Driver String).runs ((pre ++ .leave 4 true true :: []) ++ .leave 6 false true ::
      ([.pushPull 10 "x" true] ++ .left :: []))).2 = [.left] :=
  ⟨(C123_leave pre [.leave 6 false true] [] 4 .left (.inl rfl) (by decide) (by decide) (by decide) (by decide)).2,
   C123_leave_joins pre [] [.pushPull 10 "x" true] [] 4 6 false true .left (.inl rfl) (by decide) (by decide) (by decide)
     (by decide) (by decide)⟩

/-- A leave after the node has left; a join, a send and a leave after the stop. -/
example :
    answersTo 7 (({} : Driver String).runs (((pre ++ [.leave 4 true true] ++ [.left]) ++ [.pushPull 10 "x" true]) ++
      .leave 7 false true :: post.take 3)).2 = [.left] ∧
    answersTo 7 (({} : Driver String).runs ((pre ++ .stop :: []) ++ .join 7 1 true [30] :: [])).2 = [.shutdown []] ∧
    answersTo 7 (({} : Driver String).runs ((pre ++ .stop :: []) ++ .send 7 1 true [30] :: [])).2 = [.shutdown []] ∧
    answersTo 7 (({} : Driver String).runs ((pre ++ .stop :: []) ++ .leave 7 true true :: [])).2 = [.shutdown []] :=
  ⟨C123_leave_now _ [.pushPull 10 "x" true] _ 7 false true (.inr ⟨_, rfl⟩) (by decide) (by simp) (by decide) (.inl rfl),
   C123_after_stop pre [] [] 7 _ rfl (by decide), C123_after_stop pre [] [] 7 _ rfl (by decide),
   C123_after_stop pre [] [] 7 _ rfl (by decide)⟩

end Verif.Props
