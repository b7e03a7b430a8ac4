import Verif.Spec.Cluster
import Verif.Example.Endpoint
/-
A concrete cluster used by the examples beside the theorems: node 0 at address 100 and node 1 at address 101.
-/
namespace Verif.Ex
open Verif Ep Spec Cluster

theorem natCodec_lawful : LawfulData natCodec := by
  refine ⟨fun v b h => ?_⟩
  simp only [natCodec] at h
  split at h
  · rename_i hv
    cases h
    simp [natCodec, Nat.mod_eq_of_lt hv]
  · cases h

/-- The options of node 1. -/
def cfg1 : Cfg Nat Nat := { cfg with localId := 1, advertise := 101 }

/-- What node 1 says about itself in incarnation `k`. -/
def one (k : Nat) : Alive Nat Nat :=
  { incarnation := k, metadata := [7], node := { id := 1, addr := 101 }, pv := .v1, dv := .v1 }

/-- Both nodes start; node 0 hears of node 1. -/
def cJoin : List (Action Nat Nat) :=
  [.start cfg env 0, .start cfg1 env 0, .call 1 .drainBroadcasts, .call 0 (.packet 101 (.alive (one 0)) 5)]

/-- Node 0 probes node 1 and gets no answer. -/
def cSuspect : List (Action Nat Nat) :=
  cJoin ++ [.call 0 (.startProbe 10), .call 0 (.timeout (600 * MS)), .call 0 (.timeout (2000 * MS))]

/-- Node 1 hears that it is suspected, and objects. -/
def cRefute : List (Action Nat Nat) :=
  cSuspect ++ [.call 0 .drainBroadcasts, .call 1 (.packet 100 (.suspect ⟨0, 1, 0⟩) (2001 * MS)), .call 1 .drainBroadcasts]

/-- Node 0 hears the objection. -/
def cHeal : List (Action Nat Nat) := cRefute ++ [.call 0 (.packet 101 (.alive (one 1)) (2002 * MS))]

/-- Node 1 leaves, and node 0 hears of it. -/
def cLeft : List (Action Nat Nat) :=
  cHeal ++ [.call 1 (.leave (2003 * MS) none), .call 1 .drainBroadcasts, .call 0 (.packet 101 (.dead ⟨1, 1, 1⟩) (2004 * MS))]

/-- The states a node records, with incarnations. -/
def table (c : Sys Nat Nat) (j : Nat) : Option (List (Nat × Nat × NState)) :=
  (c.proc j).map (fun P => P.ep.core.members.map (fun m => (m.server.id, m.incarnation, m.state)))

example : table (run natCodec natCodec cJoin) 0 = some [(1, 0, .alive), (0, 0, .alive)] := by decide +kernel
example : table (run natCodec natCodec cSuspect) 0 = some [(1, 0, .suspect), (0, 0, .alive)] := by decide +kernel
example : table (run natCodec natCodec cRefute) 1 = some [(1, 1, .alive)] := by decide +kernel
example : table (run natCodec natCodec cHeal) 0 = some [(1, 1, .alive), (0, 0, .alive)] := by decide +kernel
example : table (run natCodec natCodec cLeft) 0 = some [(1, 1, .left), (0, 0, .alive)] := by decide +kernel

section
variable {CI : DataCodec Nat} {CA : DataCodec Nat}

theorem history_empty : History CI CA ([] : List (Action Nat Nat)) := by
  intro pre a post h; simp at h

theorem history_snoc {acts : List (Action Nat Nat)} (h : History CI CA acts) {a : Action Nat Nat}
    (ha : Possible CI CA (run CI CA acts) a) : History CI CA (acts ++ [a]) := by
  intro pre x post he
  rcases List.eq_nil_or_concat post with rfl | ⟨l, c, rfl⟩
  · have := List.append_inj' he rfl
    obtain ⟨rfl, h2⟩ := this
    cases h2; exact ha
  · rw [List.concat_eq_append, ← List.cons_append, ← List.append_assoc] at he
    exact h pre x l (List.append_inj' he rfl).1
end

/-- The calls so far on the queue of a node. -/
def queued (c : Sys Nat Nat) (j : Nat) : Option Nat := (c.proc j).map (fun P => P.ep.core.bcast.calls)

theorem possible_start {c : Sys Nat Nat} {cf : Cfg Nat Nat} {now : Nat} (h1 : cf.initialIncarnation < 2 ^ 32)
    (h2 : cf.initialMeta.length ≤ 65535) (h3 : cf.pv = .v1) (h4 : cf.dv = .v1) :
    Possible natCodec natCodec c (.start cf env now) :=
  ⟨rfl, rfl, h1, h2, by rw [h3]; trivial, by rw [h4]; trivial⟩

theorem calls_of {c : Sys Nat Nat} {i n : Nat} (hc : queued c i = some n) (hn : n ≤ 1000) :
    ∀ P, c.proc i = some P → P.ep.core.bcast.calls ≤ U64_MAX := by
  intro P hp
  unfold queued at hc
  rw [hp] at hc
  cases hc
  exact Nat.le_trans hn (by decide)

theorem possible_quiet {c : Sys Nat Nat} {i n : Nat} {op : Op Nat Nat} (h1 : ∀ src m now, op ≠ .packet src m now)
    (h2 : op.remote = []) (h3 : ∀ md, op ≠ .updateMeta md)
    (hc : queued (act natCodec natCodec c (.call i op)) i = some n) (hn : n ≤ 1000) :
    Possible natCodec natCodec c (.call i op) :=
  ⟨fun src m now h => absurd h (h1 src m now), fun h => absurd h2 h, fun md h => absurd h (h3 md), calls_of hc hn⟩

theorem possible_packet {c : Sys Nat Nat} {i n : Nat} {src now : Nat} {m : Message Nat Nat} {b : Bytes} (hb : b ∈ c.wire)
    (hp : parseMessages natCodec natCodec b = .ok [m])
    (hc : queued (act natCodec natCodec c (.call i (.packet src m now))) i = some n) (hn : n ≤ 1000) :
    Possible natCodec natCodec c (.call i (.packet src m now)) :=
  ⟨fun src' m' now' h _ => by cases h; exact ⟨b, hb, _, hp, List.mem_singleton.2 rfl⟩, fun h => absurd rfl h, nofun,
    calls_of hc hn⟩

theorem cJoin_history : History natCodec natCodec cJoin := by
  have h1 := history_snoc history_empty (possible_start (c := run natCodec natCodec []) (cf := cfg) (now := 0)
    (by decide) (by decide) rfl rfl)
  have h2 := history_snoc h1 (possible_start (cf := cfg1) (now := 0) (by decide) (by decide) rfl rfl)
  have h3 := history_snoc h2 (possible_quiet (i := 1) (n := 1) (op := .drainBroadcasts) nofun rfl nofun (by decide +kernel) (by decide))
  exact history_snoc h3 (possible_packet (i := 0) (n := 2) (src := 101) (now := 5) (m := .alive (one 0))
    (b := [6, 17, 8, 0, 18, 1, 7, 26, 6, 10, 1, 1, 18, 1, 101, 32, 1, 40, 1]) (by decide +kernel) (by decide +kernel)
    (by decide +kernel) (by decide))

theorem cSuspect_history : History natCodec natCodec cSuspect := by
  have h1 := history_snoc cJoin_history (possible_quiet (i := 0) (n := 2) (op := .startProbe 10) nofun rfl nofun (by decide +kernel) (by decide))
  have h2 := history_snoc h1 (possible_quiet (i := 0) (n := 2) (op := .timeout (600 * MS)) nofun rfl nofun (by decide +kernel) (by decide))
  exact history_snoc h2 (possible_quiet (i := 0) (n := 3) (op := .timeout (2000 * MS)) nofun rfl nofun (by decide +kernel) (by decide))

theorem cRefute_history : History natCodec natCodec cRefute := by
  have h1 := history_snoc cSuspect_history (possible_quiet (i := 0) (n := 3) (op := .drainBroadcasts) nofun rfl nofun (by decide +kernel) (by decide))
  have h2 := history_snoc h1 (possible_packet (i := 1) (n := 2) (src := 100) (now := 2001 * MS) (m := .suspect ⟨0, 1, 0⟩)
    (b := [5, 8, 8, 0, 18, 1, 1, 26, 1, 0]) (by decide +kernel) (by decide +kernel) (by decide +kernel) (by decide))
  exact history_snoc h2 (possible_quiet (i := 1) (n := 2) (op := .drainBroadcasts) nofun rfl nofun (by decide +kernel) (by decide))

theorem cHeal_history : History natCodec natCodec cHeal :=
  history_snoc cRefute_history (possible_packet (i := 0) (n := 4) (src := 101) (now := 2002 * MS) (m := .alive (one 1))
    (b := [6, 17, 8, 1, 18, 1, 7, 26, 6, 10, 1, 1, 18, 1, 101, 32, 1, 40, 1]) (by decide +kernel) (by decide +kernel)
    (by decide +kernel) (by decide))

theorem cLeft_history : History natCodec natCodec cLeft := by
  have h1 := history_snoc cHeal_history (possible_quiet (i := 1) (n := 3) (op := .leave (2003 * MS) none) nofun rfl nofun (by decide +kernel) (by decide))
  have h2 := history_snoc h1 (possible_quiet (i := 1) (n := 3) (op := .drainBroadcasts) nofun rfl nofun (by decide +kernel) (by decide))
  exact history_snoc h2 (possible_packet (i := 0) (n := 5) (src := 101) (now := 2004 * MS) (m := .dead ⟨1, 1, 1⟩)
    (b := [7, 8, 8, 1, 18, 1, 1, 26, 1, 1]) (by decide +kernel) (by decide +kernel)
    (by decide +kernel) (by decide))

/-- The action starts node `i`. -/
def starts (i : Nat) : Action Nat Nat → Bool
  | .start cf _ _ => cf.localId = i
  | _ => false

theorem neverRestarts_of {acts : List (Action Nat Nat)} {i : Nat} (h : acts.countP (starts i) ≤ 1) : NeverRestarts acts i := by
  intro pre cf en now mid cf' en' now' post he h1 h2
  subst he
  have a1 : starts i (.start cf en now) = true := by simp [starts, h1]
  have a2 : starts i (.start cf' en' now') = true := by simp [starts, h2]
  simp only [List.countP_append, List.countP_cons, a1, a2, if_true] at h
  omega

/-- The incarnation a node gives itself after the first `n` actions is small. -/
def small (acts : List (Action Nat Nat)) (i n : Nat) : Bool :=
  match view (run natCodec natCodec (acts.take n)) i i with
  | some m => decide (m.incarnation < 1000)
  | none => true

theorem neverWraps_of {acts : List (Action Nat Nat)} {i : Nat}
    (h : (List.range (acts.length + 1)).all (small acts i) = true) : NeverWraps natCodec natCodec acts i := by
  rintro a ⟨pre, post, m, rfl, hv, rfl⟩ hi
  have hm : pre.length ∈ List.range ((pre ++ post).length + 1) := by simp; omega
  have := List.all_eq_true.1 h _ hm
  unfold small at this
  rw [List.take_left] at this
  have hid : (claim m).node.id = i := hi
  rw [hid] at hv
  rw [hv] at this
  have h2 : m.incarnation < 1000 := by simpa using this
  show m.incarnation < 2 ^ 32 - 1
  omega

end Verif.Ex
