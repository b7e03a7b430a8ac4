import Verif.Proof.Observe

/-!
C120 and C121: the events the reactor driver hands to the application. Stated over every state that some history of
steps of the two tasks reaches, from the start.
-/

namespace Verif.Props

open Verif.Observe

variable {E : Type}

/-- C120. No event disappears: each one told by the engine has been given to the application's hooks, is on its way, or
was dropped, and none appears twice. The counter `observation_dropped` counts those dropped, and the hooks that
panicked. -/
theorem C120_counted {c : Setup E} {s : State E} (h : Reached c s) :
    s.told.Perm (s.heard ++ s.underway ++ s.lost) ∧ s.dropped = s.lost.length + s.panics :=
  ⟨h.traced.events, h.traced.drops⟩

/-- C120. An event is dropped only when its payload would exceed the budget of bytes, or when the channel is full and,
if it has a payload, 1024 others wait to be retried. -/
theorem C120_dropped (c : Setup E) (s : State E) (op : Op E) (h : (s.step c op).lost ≠ s.lost) :
    ∃ e, (s.step c op).lost = s.lost ++ [e] ∧
      ((∃ b n, c.budget = some b ∧ c.payload e = some n ∧ (b : Int) < s.bytes + n) ∨
       (∃ n, c.cap = some n ∧ n ≤ s.chan.length ∧ (c.payload e = none ∨ 1024 ≤ s.overflow.length))) := by
  cases op with
  | offer e =>
    simp only [State.step] at h ⊢
    split at h
    · next hs =>
      split at h
      · next ho =>
        rw [if_pos ho]
        refine ⟨e, rfl, .inl ?_⟩
        unfold Setup.over at ho
        split at ho
        · next b n hb hn => exact ⟨b, n, hb, hn, by simpa using ho⟩
        · cases ho
      · exact absurd rfl h
    · exact absurd rfl h
  | send =>
    simp only [State.step] at h ⊢
    split at h
    · exact absurd rfl h
    · exact absurd rfl h
    · next e hs =>
      split at h
      · exact absurd rfl h
      · next hr =>
        split at h
        · exact absurd rfl h
        · next ho =>
          rw [if_neg hr, if_neg ho]
          refine ⟨e, rfl, .inr ?_⟩
          unfold Setup.room at hr
          split at hr
          · next n hn =>
            refine ⟨n, hn, by simpa using hr, ?_⟩
            cases hp : c.payload e with
            | none => exact .inl rfl
            | some m =>
              rw [hp] at ho
              rcases Nat.lt_or_ge s.overflow.length 1024 with hlt | hge
              · exact absurd (by simp [hlt, overflowMax]) ho
              · exact .inr hge
          · exact absurd rfl hr
    · exact absurd rfl h
  | flush =>
    simp only [State.step] at h
    split at h
    · split at h <;> exact absurd rfl h
    · exact absurd rfl h
  | recv =>
    simp only [State.step] at h
    split at h <;> exact absurd rfl h
  | observe p =>
    simp only [State.step] at h
    split at h
    · exact absurd rfl h
    · exact absurd rfl h
    · exfalso
      revert h
      cases p <;> simp only [Bool.false_eq_true, if_false, if_true] <;> (repeat' split) <;> exact fun h => h rfl
  | take =>
    simp only [State.step] at h
    split at h <;> exact absurd rfl h

/-- C120. With a budget, the counter of payload bytes stays between nothing and the budget, and so do the bytes that
wait for the application. -/
theorem C120_budget {c : Setup E} {s : State E} (h : Reached c s) (b : Nat) (hb : c.budget = some b) :
    0 ≤ s.bytes ∧ s.bytes ≤ b ∧ c.total (s.chan ++ s.overflow) ≤ b := by
  have h1 := h.accounts
  have h2 := (h.within b hb).1
  unfold Accounts at h1
  rw [total_append]
  omega

/-- C120. No byte of the budget is lost: when neither task is in the middle of an event, the counter is the bytes that
wait. In particular it is back at nothing once the application has caught up. -/
theorem C120_released {c : Setup E} {s : State E} (h : Reached c s) (hs : s.sender = .idle)
    (ho : s.observer = .idle) : s.bytes = c.total (s.chan ++ s.overflow) := by
  have h1 := h.accounts
  unfold Accounts at h1
  rw [hs, ho] at h1
  rw [total_append]
  simp only [Sender.reservedBytes, Observer.reservedBytes] at h1
  omega

/-- C120. The queues keep to their bounds. -/
theorem C120_bounded {c : Setup E} {s : State E} (h : Reached c s) :
    (∀ n, c.cap = some n → s.chan.length ≤ n) ∧ s.overflow.length ≤ 1024 ∧ s.stream.length ≤ c.streamCap :=
  ⟨h.sized.chan, h.sized.overflow, h.sized.stream⟩

/-- C121. Events of membership and control reach the hooks in the order the engine told them. -/
theorem C121_order {c : Setup E} {s : State E} (h : Reached c s) :
    (s.heard.filter c.control).Sublist (s.told.filter c.control) := by
  have := h.traced.control
  simp only [List.filter_append, List.append_assoc] at this
  exact (List.sublist_append_left _ _).trans this

/-- C121. The event stream carries exactly those, in the order the hooks had them, less the ones dropped for a slow
subscriber; `events_dropped` counts these. Application data never appears there. -/
theorem C121_stream {c : Setup E} {s : State E} (h : Reached c s) :
    (s.taken ++ s.stream).Sublist (s.heard.filter c.control) ∧
    (s.taken ++ s.stream).length + s.streamDropped = (s.heard.filter c.control).length :=
  ⟨h.traced.streamed, h.traced.forwarded⟩

/-- Three user messages of ten bytes over a channel of one, the event 0 of membership among them. -/
def observeSetup : Setup Nat := { cap := some 1, budget := some 25, streamCap := 4, payload := fun e => if e = 0 then none else some 10 }

/-- The second message waits to be retried; the observation task takes the first; the third goes ahead of it. -/
def observeCase : List (Op Nat) :=
  [.offer 1, .send, .send, .flush, .offer 2, .send, .send, .recv, .observe false, .offer 3, .send, .send, .offer 0, .send, .send,
   .send, .observe true, .recv, .observe false, .observe false, .flush, .recv, .observe false, .observe false,
   .offer 0, .send, .send, .recv, .observe false, .observe false, .take]

example : (({} : State Nat).runs observeSetup observeCase).heard = [1, 3, 2, 0] ∧
    (({} : State Nat).runs observeSetup observeCase).lost = [0] ∧
    (({} : State Nat).runs observeSetup observeCase).dropped = 2 ∧
    (({} : State Nat).runs observeSetup observeCase).bytes = 0 ∧
    (({} : State Nat).runs observeSetup observeCase).taken = [0] := by decide

example : Reached observeSetup (({} : State Nat).runs observeSetup observeCase) := ⟨_, rfl⟩

/-- The budget refuses a third message while two wait. -/
example : (({} : State Nat).runs observeSetup
    [.offer 1, .send, .send, .offer 2, .send, .send, .offer 3]).lost = [3] := by decide

/-- C121. Of application data the same cannot be said: a message that waits to be retried is overtaken by a later one
that finds room in the channel, although nothing is lost. -/
theorem C121_overtaken_witness : ∃ (c : Setup Nat) (s : State Nat), Reached c s ∧ c.budget = some 100 ∧
    s.told = [1, 2, 3] ∧ s.heard = [1, 3, 2] ∧ s.lost = [] :=
  ⟨{ cap := some 1, budget := some 100, streamCap := 4, payload := fun _ => some 10 },
   ({} : State Nat).runs { cap := some 1, budget := some 100, streamCap := 4, payload := fun _ => some 10 }
    [.offer 1, .send, .send, .flush, .offer 2, .send, .send, .recv, .observe false, .observe false,
     .offer 3, .send, .send, .recv, .observe false, .observe false, .flush, .recv, .observe false, .observe false],
   ⟨_, rfl⟩, rfl, by decide, by decide, by decide⟩

end Verif.Props
