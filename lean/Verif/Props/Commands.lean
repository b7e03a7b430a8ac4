import Verif.Model.Commands

/-!
C122: a command a handle of the reactor driver has queued reaches the driver. Stated over every history of the queue:
any number of handles pushing, the driver draining and closing.
-/

namespace Verif.Props

open Verif.Commands

variable {K : Type}

/-- The commands accepted in a history, in order. -/
def commandsAccepted (out : List (Out K)) : List K := out.filterMap fun | .accepted k => some k | _ => none

/-- The commands the driver was handed, in order. -/
def commandsHanded (out : List (Out K)) : List K := (out.filterMap fun | .handed ks => some ks | _ => none).flatten

theorem commandsAccepted_append (a b : List (Out K)) :
    commandsAccepted (a ++ b) = commandsAccepted a ++ commandsAccepted b := by simp [commandsAccepted]

theorem commandsHanded_append (a b : List (Out K)) :
    commandsHanded (a ++ b) = commandsHanded a ++ commandsHanded b := by simp [commandsHanded]

theorem commands_step (q : Queue K) (c : Call K) :
    commandsHanded (q.step c).2 ++ (q.step c).1.commands = q.commands ++ commandsAccepted (q.step c).2 := by
  obtain ⟨ks, w, cl⟩ := q
  cases c with
  | push k => cases cl <;> cases w <;> simp [Queue.step, Queue.rouse, commandsHanded, commandsAccepted]
  | drain t => cases w <;> simp [Queue.step, commandsHanded, commandsAccepted]
  | close => simp [Queue.step, commandsHanded, commandsAccepted]
  | wake => cases w <;> simp [Queue.step, Queue.rouse, commandsHanded, commandsAccepted]

theorem commands_runs (q : Queue K) (cs : List (Call K)) :
    commandsHanded (q.runs cs).2 ++ (q.runs cs).1.commands = q.commands ++ commandsAccepted (q.runs cs).2 := by
  induction cs generalizing q with
  | nil => simp [Queue.runs, commandsHanded, commandsAccepted]
  | cons c cs ih =>
    simp only [Queue.runs, commandsHanded_append, commandsAccepted_append, List.append_assoc, ih]
    rw [← List.append_assoc, commands_step, List.append_assoc]

/-- C122. The driver is handed exactly the commands accepted, each once and in order, but for those still queued. -/
theorem C122_once (cs : List (Call K)) :
    commandsHanded (({} : Queue K).runs cs).2 ++ (({} : Queue K).runs cs).1.commands =
      commandsAccepted (({} : Queue K).runs cs).2 := by
  simpa using commands_runs ({} : Queue K) cs

theorem commands_closed (q : Queue K) (cs : List (Call K)) (h : q.closed = true) (h0 : q.commands = []) :
    commandsAccepted (q.runs cs).2 = [] ∧ (q.runs cs).1.commands = [] := by
  induction cs generalizing q with
  | nil => exact ⟨rfl, h0⟩
  | cons c cs ih =>
    have hs : (q.step c).1.closed = true ∧ (q.step c).1.commands = [] ∧ commandsAccepted (q.step c).2 = [] := by
      obtain ⟨ks, w, cl⟩ := q
      simp only at h h0
      subst h h0
      cases c <;> cases w <;> simp [Queue.step, Queue.rouse, commandsAccepted]
    have := ih _ hs.1 hs.2.1
    simp only [Queue.runs, commandsAccepted_append, hs.2.2, List.nil_append]
    exact this

theorem commands_runs_append (q : Queue K) (a b : List (Call K)) :
    q.runs (a ++ b) = (((q.runs a).1.runs b).1, (q.runs a).2 ++ ((q.runs a).1.runs b).2) := by
  induction a generalizing q with
  | nil => rfl
  | cons c a ih => simp only [List.cons_append, Queue.runs, ih, List.append_assoc]

/-- C122. Once the driver has closed the queue nothing more is accepted and nothing is left in it: every command ever
accepted has been handed to the driver, which can answer it. -/
theorem C122_closed (pre post : List (Call K)) :
    commandsHanded (({} : Queue K).runs (pre ++ .close :: post)).2 =
      commandsAccepted (({} : Queue K).runs (pre ++ .close :: post)).2 ∧
    commandsAccepted (({} : Queue K).runs (pre ++ .close :: post)).2 =
      commandsAccepted (({} : Queue K).runs pre).2 := by
  have h1 := C122_once (pre ++ .close :: post)
  have hc := commands_closed (((({} : Queue K).runs pre).1.step .close).1) post rfl rfl
  rw [commands_runs_append] at h1 ⊢
  simp only [Queue.runs] at h1 ⊢
  rw [hc.2, List.append_nil] at h1
  refine ⟨h1, ?_⟩
  rw [commandsAccepted_append, commandsAccepted_append, hc.1]
  simp [Queue.step, commandsAccepted]

/-- C122. Before that every push is accepted. -/
theorem C122_accepted (pre : List (Call K)) (k : K) (h : Call.close ∉ pre) :
    commandsAccepted ((({} : Queue K).runs pre).1.step (.push k)).2 = [k] := by
  have key : ∀ (q : Queue K) (cs : List (Call K)), q.closed = false → Call.close ∉ cs →
      (q.runs cs).1.closed = false := by
    intro q cs
    induction cs generalizing q with
    | nil => exact fun h _ => h
    | cons c cs ih =>
      intro hq hn
      simp only [List.mem_cons, not_or] at hn
      refine ih _ ?_ hn.2
      obtain ⟨ks, w, cl⟩ := q
      simp only at hq
      subst hq
      cases c with
      | push k => cases w <;> simp [Queue.step, Queue.rouse]
      | drain t => rfl
      | close => exact absurd rfl hn.1
      | wake => cases w <;> simp [Queue.step, Queue.rouse]
  have := key {} pre rfl h
  generalize (({} : Queue K).runs pre).1 = q at this
  obtain ⟨ks, w, cl⟩ := q
  simp only at this
  subst this
  cases w <;> simp [Queue.step, Queue.rouse, commandsAccepted]

/-- C122. No wake is lost: if commands wait, the task that drained last has been woken since. -/
theorem C122_woken (pre mid : List (Call K)) (t : Nat) (hm : ∀ u, Call.drain u ∉ mid)
    (hq : (({} : Queue K).runs (pre ++ .drain t :: mid)).1.commands ≠ []) :
    Out.woken t ∈ ((((({} : Queue K).runs pre).1.step (.drain t)).1).runs mid).2 := by
  have key : ∀ (q : Queue K) (cs : List (Call K)), q.waker = some t → q.commands = [] → (∀ u, Call.drain u ∉ cs) →
      (q.runs cs).1.commands ≠ [] → Out.woken t ∈ (q.runs cs).2 := by
    intro q cs
    induction cs generalizing q with
    | nil => exact fun _ h0 _ h => absurd h0 h
    | cons c cs ih =>
      intro hw h0 hn hne
      have hn' : ∀ u, Call.drain u ∉ cs := fun u hu => hn u (List.mem_cons_of_mem _ hu)
      obtain ⟨ks, w, cl⟩ := q
      simp only at hw h0
      subst hw h0
      simp only [Queue.runs, List.mem_append] at hne ⊢
      cases c with
      | push k =>
        cases cl with
        | true => exact .inr (ih _ rfl rfl hn' hne)
        | false => left; simp [Queue.step, Queue.rouse]
      | drain u => exact absurd List.mem_cons_self (hn u)
      | close => exact .inr (ih _ rfl rfl hn' hne)
      | wake => left; simp [Queue.step, Queue.rouse]
  rw [commands_runs_append] at hq
  refine key _ mid ?_ rfl hm (by simpa [Queue.runs] using hq)
  simp only [Queue.step]
  split
  · next w _ => split
                · next h => rw [h]
                · rfl
  · rfl

/-- Two handles, a drain before and after, and a push that comes too late. -/
example : (({} : Queue Nat).runs [.drain 7, .push 1, .push 2, .drain 7, .push 3, .close, .push 4]).2 =
    [.handed [], .accepted 1, .woken 7, .accepted 2, .handed [1, 2], .accepted 3, .woken 7, .handed [3], .refused 4] := by
  decide

/-- Commands wait after a drain. -/
example : (({} : Queue Nat).runs ([] ++ .drain 7 :: [.push 1])).1.commands ≠ [] := by decide

end Verif.Props
