import Verif.Proof.Snapshot
import Verif.Spec.Snapshot
import Verif.Example.Endpoint

/-!
C125: what a handle reads off the published snapshot is the membership the engine holds. Stated over every history of
calls of the engine and of republications by the driver, in any order.
-/

namespace Verif.Props

open Verif Ep Spec Verif.Snapshot

variable {I A : Type} [DecidableEq I] [DecidableEq A]
variable {cfg : Cfg I A} {env : Env I A}

omit [DecidableEq A] in
private theorem find_iff (id : I) : ∀ k : List (NodeState I A), (k.map (·.id)).Nodup → ∀ n,
    k.find? (fun n => n.id = id) = some n ↔ n ∈ k ∧ n.id = id := by
  intro k
  induction k with
  | nil => simp
  | cons x k ih =>
    intro hk n
    simp only [List.map_cons, List.nodup_cons] at hk
    by_cases hx : x.id = id
    · simp only [List.find?_cons, hx, decide_true, Option.some.injEq, List.mem_cons]
      constructor
      · rintro rfl; exact ⟨.inl rfl, hx⟩
      · rintro ⟨rfl | hm, hid⟩
        · rfl
        · exact absurd (List.mem_map_of_mem (f := fun n : NodeState I A => n.id) hm) (by rw [hid, ← hx]; exact hk.1)
    · simp only [List.find?_cons, hx, decide_false, ih hk.2 n, List.mem_cons]
      constructor
      · rintro ⟨h, h'⟩; exact ⟨.inr h, h'⟩
      · rintro ⟨rfl | h, h'⟩
        · exact absurd h' hx
        · exact ⟨h, h'⟩

omit [DecidableEq I] [DecidableEq A] in
private theorem find_perm {l l' : List (NodeState I A)} [DecidableEq I] (h : l.Perm l') (hn : (l.map (·.id)).Nodup) (id : I) :
    l.find? (fun n => n.id = id) = l'.find? (fun n => n.id = id) := by
  apply Option.ext
  intro n
  rw [find_iff id l hn n, find_iff id l' ((h.map _).nodup_iff.mp hn) n, h.mem_iff]

private theorem shows_of {e : Ep I A} (h : Reachable cfg env e) {s : Snap I A}
    (hm : s.members.Perm (shown e.core.members))
    (ha : s.aliveCount = (e.core.members.filter fun m => m.state = .alive).length)
    (hc : s.memberCount = e.core.members.length) (hh : s.health = e.core.awareness.score)
    (hl : s.loc.id = cfg.localId ∧ s.loc.addr = cfg.advertise)
    (hs : ∃ st, ({ s.loc with state := st } : NodeState I A) ∈ s.members) : ShowsNow cfg e s := by
  have hi := (reachable_good h).inv
  have hids : (shown e.core.members).map (·.id) = e.core.members.map Member.id := by
    simp [shown, Member.id, Function.comp_def]
  have hn : ((shown e.core.members).map (·.id)).Nodup := by rw [hids]; exact hi.nodup
  refine ⟨fun id => ?_, (hm.map _).nodup_iff.mpr hn, fun n hin => ?_, ?_, ⟨?_, hc⟩, hh, hl, ?_⟩
  · rw [Snap.byId, ← find_perm hm.symm hn id]
    simp only [shown, member, List.find?_map, Function.comp_def]
  · obtain ⟨m, hmm, rfl⟩ := List.mem_map.mp (hm.mem_iff.mp hin)
    exact (hi.mem _ _ ((Table.get_iff hi.nodup).2 ⟨hmm, rfl⟩)).known
  · rw [ha, Snap.online, (hm.filter _).length_eq, shown, List.filter_map, List.length_map]
    rfl
  · rw [hc, hm.length_eq, shown, List.length_map]
  · obtain ⟨st, hst⟩ := hs
    exact ⟨st, (find_iff _ _ ((hm.map _).nodup_iff.mpr hn) _).mpr ⟨hst, hl.1⟩⟩

private theorem shown_local {e : Ep I A} (h : Reachable cfg env e) {m : Member I A}
    (hm : e.core.members.get cfg.localId = some m) :
    ∃ st, ({ m.server with state := st } : NodeState I A) ∈ shown e.core.members :=
  ⟨m.state, List.mem_map.mpr ⟨m, ((Table.get_iff (reachable_good h).inv.nodup).1 hm).1, rfl⟩⟩

/-- C125. A snapshot can always be built, and shows the membership at that moment. -/
theorem C125_built {e : Ep I A} (h : Reachable cfg env e) : ∃ s, snapshotOf cfg e = some s ∧ ShowsNow cfg e s := by
  obtain ⟨m, hm, hadr, hs⟩ := snapshotOf_eq h
  exact ⟨_, hs, shows_of h (.refl _) rfl rfl rfl ⟨Table.get_id hm, hadr⟩ (shown_local h hm)⟩

/-! ### The published cell -/

/-- What the cell holds between republications. -/
private structure CellOk (cfg : Cfg I A) (e : Ep I A) (c : Cell I A) : Prop where
  ver : c.last ≤ e.core.snapVer
  now : e.core.snapVer = c.last → ∃ s, c.snap = some s ∧ s.members.Perm (shown e.core.members) ∧
    s.aliveCount = (e.core.members.filter fun m => m.state = .alive).length ∧
    s.memberCount = e.core.members.length ∧ s.health = e.core.awareness.score
  self : ∃ s, c.snap = some s ∧ (s.loc.id = cfg.localId ∧ s.loc.addr = cfg.advertise) ∧
    ∃ st, ({ s.loc with state := st } : NodeState I A) ∈ s.members

private theorem cell_built {e : Ep I A} (h : Reachable cfg env e) : CellOk cfg e (Cell.first cfg e) := by
  obtain ⟨m, hm, hadr, hs⟩ := snapshotOf_eq h
  exact ⟨Nat.le_refl _, fun _ => ⟨_, hs, .refl _, rfl, rfl, rfl⟩, _, hs, ⟨Table.get_id hm, hadr⟩, shown_local h hm⟩

private theorem cell_step {e : Ep I A} {c : Cell I A} (h : Reachable cfg env e) (hc : CellOk cfg e c) (op : Op I A) :
    CellOk cfg (e.step cfg env op).1 c := by
  obtain ⟨hl, hst⟩ := step_later_steady h op
  refine ⟨Nat.le_trans hc.ver hl.1, fun heq => ?_, hc.self⟩
  have hv := hc.ver
  have hle := hl.1
  obtain ⟨s, h1, h2, h3, h4, h5⟩ := hc.now (by omega)
  have hp := hl.2 (by omega)
  have hsh : (shown (e.step cfg env op).1.core.members).Perm (shown e.core.members) := by
    rw [shown_eq, shown_eq]; exact hp.map _
  refine ⟨s, h1, h2.trans hsh.symm, ?_, ?_, ?_⟩
  · rw [h3]
    have := (hsh.filter fun n => n.state = .alive).length_eq
    simp only [shown, List.filter_map, List.length_map, Function.comp_def] at this
    exact this.symm
  · rw [h4]
    have := hsh.length_eq
    simp only [shown, List.length_map] at this
    exact this.symm
  · rw [h5, hst.2 (by omega)]

private theorem cell_refresh {e : Ep I A} {c : Cell I A} (h : Reachable cfg env e) (hc : CellOk cfg e c) :
    CellOk cfg e (c.refresh cfg e) ∧ (c.refresh cfg e).last = e.core.snapVer := by
  unfold Cell.refresh
  split
  · exact ⟨cell_built h, rfl⟩
  · rename_i hne
    exact ⟨hc, (Decidable.not_not.mp hne).symm⟩

private theorem drive_ok (l : List (Move I A)) : ∀ {e : Ep I A} {c : Cell I A}, Reachable cfg env e → CellOk cfg e c →
    Reachable cfg env (drive cfg env e c l).1 ∧ CellOk cfg (drive cfg env e c l).1 (drive cfg env e c l).2 := by
  induction l with
  | nil => exact fun h hc => ⟨h, hc⟩
  | cons x l ih =>
    intro e c h hc
    cases x with
    | call op => exact ih (reachable_step h op) (cell_step h hc op)
    | refresh => exact ih h (cell_refresh h hc).1

omit [DecidableEq A] in
private theorem drive_snoc [DecidableEq A] (l : List (Move I A)) (e : Ep I A) (c : Cell I A) :
    drive cfg env e c (l ++ [.refresh]) =
      ((drive cfg env e c l).1, (drive cfg env e c l).2.refresh cfg (drive cfg env e c l).1) := by
  induction l generalizing e c with
  | nil => rfl
  | cons x l ih => cases x <;> exact ih _ _

/-- C125. Whenever the driver has come by to republish, what it has published shows the membership of that moment, even
though it builds the snapshot anew only if the engine's version has changed. -/
theorem C125_current {t0 : Nat} {e0 : Ep I A} (h0 : tryNew cfg env t0 = .ok e0) (l : List (Move I A)) :
    ∃ s, (drive cfg env e0 (Cell.first cfg e0) (l ++ [.refresh])).2.snap = some s ∧
      ShowsNow cfg (drive cfg env e0 (Cell.first cfg e0) l).1 s := by
  have hr0 := reachable_new h0
  obtain ⟨hr, hc⟩ := drive_ok (cfg := cfg) (env := env) l hr0 (cell_built hr0)
  rw [drive_snoc]
  obtain ⟨hc', hlast⟩ := cell_refresh hr hc
  obtain ⟨s, h1, h2, h3, h4, h5⟩ := hc'.now hlast.symm
  obtain ⟨s', h1', h6, h7⟩ := hc'.self
  rw [h1] at h1'
  cases h1'
  exact ⟨s, h1, shows_of hr h2 h3 h4 h5 h6 h7⟩

/-! ### A case, and one claim that fails -/

/-- Nodes 1 and 2 are seen, one of them suspected. -/
example : (snapshotOf Ex.cfg (Ex.after Ex.h1)).map (fun s => (s.members.map fun n => (n.id, n.state), s.aliveCount)) =
    some ([(2, .alive), (0, .alive), (1, .suspect)], 2) := by decide +kernel

/-- After the leave, the local record `local_ref` still says alive, while the list of members says left: it is the
record last announced, not stamped with the current state. -/
theorem C125_local_witness :
    (snapshotOf Ex.cfg (Ex.after [.leave 50 none])).map (fun s => (s.loc.state, (s.byId 0).map (·.state))) =
      some (.alive, some .left) := by decide +kernel

/-- The published snapshot after some calls, a republication, and calls that change nothing it shows. -/
example : ∃ s, (drive Ex.cfg Ex.env Ex.e0 (Cell.first Ex.cfg Ex.e0)
      ((Ex.h1.map .call ++ [.refresh, .call (.startProbe 40)]) ++ [.refresh])).2.snap = some s ∧
    ShowsNow Ex.cfg (drive Ex.cfg Ex.env Ex.e0 (Cell.first Ex.cfg Ex.e0)
      (Ex.h1.map .call ++ [.refresh, .call (.startProbe 40)])).1 s :=
  C125_current Ex.e0_ok _

end Verif.Props
