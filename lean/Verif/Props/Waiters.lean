import Verif.Proof.Waiters

/-!
C117 and C118: the calls that wait on the embassy driver, and the events it keeps for the application. Stated
over every history of pings, reliable sends, events told by the engine, polls and a stop.
-/

namespace Verif.Props

open Verif.Embassy

variable {E : Type}

/-- C117. A ping is answered exactly once, with the first thing that is said about its id after it began: its
round-trip time, its timeout, or that the driver stopped. Until something is said it is not answered. Nothing
said about another ping or send answers it. -/
theorem C117_ping (pre post : List (SOp E)) (id w : Nat) (h : Distinct (pre ++ .ping id w :: post)) :
    answersOf w ((Shared.new E).runs (pre ++ .ping id w :: post)).2 =
      (post.findSome? (pingNews id)).toList :=
  answered_ping h

/-- C117. The same of a reliable send: its own exchange's outcome answers it, whatever order the exchanges end
in. -/
theorem C117_send (pre post : List (SOp E)) (sid w : Nat) (h : Distinct (pre ++ .send sid w :: post)) :
    answersOf w ((Shared.new E).runs (pre ++ .send sid w :: post)).2 =
      (post.findSome? (sendNews sid)).toList :=
  answered_send h

/-- Two sends and a ping; the second send ends first, the ping fails, the first send and another
ping, under the id of the one that failed, are left to the stop. -/
def waitingCase : List (SOp Nat) :=
  [.send 4 0, .ping 4 1, .send 5 2, .event 10 (.sendDone (some 5) true), .poll, .event 11 (.pingFailed 4),
   .event 12 (.pingCompleted 4 7), .ping 4 3, .stop]

example : Distinct waitingCase := ⟨by simp only [Fresh, waitingCase]; decide, by decide⟩

example : answersOf 0 ((Shared.new Nat).runs waitingCase).2 = [.notRunning] ∧
    answersOf 1 ((Shared.new Nat).runs waitingCase).2 = [.pingTimeout] ∧
    answersOf 2 ((Shared.new Nat).runs waitingCase).2 = [.sent] := by decide

/-- C118. What the application has been given, followed by what is still kept for it, are events the engine
told, in the order it told them and each at most as often as told. -/
theorem C118_order (ops : List (SOp E)) :
    (polled ((Shared.new E).runs ops).2 ++ ((Shared.new E).runs ops).1.events).Sublist (told ops) :=
  runs_kept_sublist (Shared.new E) ops

/-- C118. What is kept are the newest events, at most 1024 of them. -/
theorem C118_newest (ops : List (SOp E)) :
    ((Shared.new E).runs ops).1.events <:+ told ops ∧ ((Shared.new E).runs ops).1.events.length ≤ 1024 :=
  ⟨runs_kept_suffix (Shared.new E) ops, runs_len (Shared.new E) ops (Nat.zero_le _)⟩

/-- C118. An application that never falls more than 1024 events behind misses none: those it was given and those
kept for it are all that were told. -/
theorem C118_all (ops : List (SOp E))
    (h : ∀ pre, pre <+: ops →
      (told pre).length ≤ (polled ((Shared.new E).runs pre).2).length + 1024) :
    polled ((Shared.new E).runs ops).2 ++ ((Shared.new E).runs ops).1.events = told ops :=
  runs_kept_all (Shared.new E) ops fun pre hp => by
    have := h pre hp
    simpa [Shared.new, appEventsCap] using this

/-- C118. A poll gives the oldest event kept and takes only that one away; it gives nothing exactly when nothing
is kept. -/
theorem C118_poll (s : Shared E) :
    polled (s.step .poll).2 = s.events.take 1 ∧ (s.step .poll).1.events = s.events.drop 1 := by
  obtain ⟨ps, ss, es⟩ := s
  cases es <;> exact ⟨rfl, rfl⟩

/-- A short history never falls behind. -/
example : ∀ pre, pre <+: waitingCase →
    (told pre).length ≤ (polled ((Shared.new Nat).runs pre).2).length + 1024 := by
  intro pre hp
  have h1 : (told pre).length ≤ pre.length := List.length_filterMap_le _ _
  have h2 : pre.length ≤ waitingCase.length := hp.length_le
  have h3 : waitingCase.length = 9 := rfl
  omega

example : polled ((Shared.new Nat).runs waitingCase).2 = [10] ∧
    ((Shared.new Nat).runs waitingCase).1.events = [11, 12] := by decide

/-- C118. One that falls further behind loses the oldest: of 1025 events told and none polled, the first is
gone. -/
theorem C118_lost (e : E) (es : List E) (h : es.length = 1024) :
    ((Shared.new E).runs ((e :: es).map fun x => .event x .other)).1.events = es := by
  have hk := C118_newest ((e :: es).map fun x => SOp.event x Told.other)
  have ht : told ((e :: es).map fun x => SOp.event x Told.other) = e :: es := by
    simp [told, List.filterMap_map, Function.comp_def]
  rw [ht] at hk
  obtain ⟨⟨d, hd⟩, hlen⟩ := hk
  have hl := runs_quiet_len (Shared.new E) (e :: es) (Nat.zero_le _)
  have e0 : (Shared.new E).events.length = 0 := rfl
  simp only [e0, List.length_cons, appEventsCap] at hl
  have hx := congrArg List.length hd
  simp only [List.length_append, List.length_cons] at hx
  match d, hd, hx with
  | [_], hd, _ => exact (List.cons.inj hd).2
  | [], _, hx => simp only [List.length_nil] at hx; omega
  | _ :: _ :: _, _, hx => simp only [List.length_cons] at hx; omega

end Verif.Props
