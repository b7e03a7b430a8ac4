import Verif.Proof.CoordLife
import Verif.Proof.Leave
/-
What a coordinator does after `leave`, and the bounds it keeps on what others make it hold.
-/
namespace Verif
open Spec
namespace Coord
variable {I A : Type} [DecidableEq I] [DecidableEq A] {cfg : Cfg I A} {env : Env I A} {X : XCfg} {T : TEnv} {N : Nat → Bridge I A → Prop} {L : Prop}

/-- What every move and first effect keeps. -/
structure Keeps (c c' : Coord I A) : Prop where
  calls : ∃ l, c'.calls = c.calls ++ l
  quiet : c.ep.isRunning = false →
    c'.nextX = c.nextX ∧ (∀ e ∈ c'.connects, e ∈ c.connects) ∧ c'.ingress.length ≤ c.ingress.length
  ingress : c.ingress.length ≤ MAX_INGRESS → c'.ingress.length ≤ MAX_INGRESS

/-- Only the bookkeeping of exchanges changes. -/
structure Held (c c' : Coord I A) : Prop where
  calls : ∃ l, c'.calls = c.calls ++ l
  nextX : c'.nextX = c.nextX
  connects : ∀ e ∈ c'.connects, e ∈ c.connects
  ingress : c'.ingress.length ≤ c.ingress.length

omit [DecidableEq I] [DecidableEq A] in
theorem Held.keeps {c c' : Coord I A} (h : Held c c') : Keeps c c' :=
  ⟨h.calls, fun _ => ⟨h.nextX, h.connects, h.ingress⟩, fun hc => Nat.le_trans h.ingress hc⟩

omit [DecidableEq I] [DecidableEq A] in
theorem Held.trans {a b c : Coord I A} (h : Held a b) (g : Held b c) : Held a c := by
  obtain ⟨l, hl⟩ := h.calls
  obtain ⟨k, hk⟩ := g.calls
  exact ⟨⟨l ++ k, by rw [hk, hl, List.append_assoc]⟩, g.nextX.trans h.nextX, fun e he => h.connects e (g.connects e he),
    Nat.le_trans g.ingress h.ingress⟩

omit [DecidableEq I] [DecidableEq A] in
theorem Held.rfl' {c c' : Coord I A} (h1 : c'.calls = c.calls) (h2 : c'.nextX = c.nextX)
    (h3 : ∀ e ∈ c'.connects, e ∈ c.connects) (h4 : c'.ingress.length ≤ c.ingress.length) : Held c c' :=
  ⟨⟨[], by rw [h1, List.append_nil]⟩, h2, h3, h4⟩

theorem Held.call (c : Coord I A) (x : Option Nat) (op : Ep.Op I A) : Held c (c.callEp cfg env x op).1 :=
  ⟨⟨_, rfl⟩, rfl, fun _ h => h, Nat.le_refl _⟩

theorem Held.complete (c : Coord I A) (x : Nat) (m : Option (XMeta A)) (ok : Bool) :
    Held c (c.complete cfg env x m ok) := by
  unfold Coord.complete
  split
  · exact .rfl' rfl rfl (fun _ h => h) (Nat.le_refl _)
  · split
    · exact .rfl' rfl rfl (fun _ h => h) (Nat.le_refl _)
    · exact .call _ _ _

omit [DecidableEq I] [DecidableEq A] in
theorem Held.collect (c : Coord I A) (x : Nat) (b : Bridge I A) : Held c (c.collect x b).1 := by
  unfold Coord.collect
  split
  · exact .rfl' rfl rfl (fun _ h => h) (Nat.le_refl _)
  · split <;> exact .rfl' rfl rfl (fun _ h => h) (Nat.le_refl _)

theorem Held.reap (c : Coord I A) (x : Nat) (b : Bridge I A) : Held c (c.reap cfg env x b) := by
  unfold Coord.reap
  simp only []
  have h1 : Held c (if b.isFailed = true then c.purge x else (c.collect x b).1) := by
    split
    · exact .rfl' rfl rfl (fun _ h => h) (Nat.le_refl _)
    · exact .collect c x b
  refine h1.trans ?_
  generalize (if b.isFailed = true then c.purge x else (c.collect x b).1) = c1
  have h2 : Held c1 { c1 with conns := c1.conns.erase x, metas := c1.metas.erase x } :=
    .rfl' rfl rfl (fun _ h => h) (Nat.le_refl _)
  have h3 := h2.trans (Held.complete (cfg := cfg) (env := env) _ x (c1.metas.get? x) (!b.isFailed))
  split
  · next sid _ =>
    refine (h3.trans (.call (cfg := cfg) (env := env) _ (some x) (.dialFailed sid))).trans ?_
    exact .rfl' rfl rfl (fun _ h => h) (Nat.le_refl _)
  · refine h3.trans ?_
    exact .rfl' rfl rfl (fun _ h => h) (Nat.le_refl _)

theorem Keeps.move {c c' : Coord I A} (hm : Move cfg env X T N L c c') : Keeps c c' := by
  cases hm with
  | book s =>
    refine ⟨⟨[], by rw [s.calls, List.append_nil]⟩, fun hr => ⟨s.nextX, fun e he => by rw [← s.connects]; exact he, ?_⟩,
      fun hc => ?_⟩
    · exact s.ingress.length_le
    · exact Nat.le_trans s.ingress.length_le hc
  | call x op hp => exact (Held.call c x op).keeps
  | start op sid kind hs =>
    exact ⟨⟨_, rfl⟩, fun _ => ⟨rfl, fun _ h => h, Nat.le_refl _⟩, fun h => h⟩
  | bridge => exact Held.keeps (.rfl' rfl rfl (fun _ h => h) (Nat.le_refl _))
  | commit now => exact ⟨⟨_, rfl⟩, fun _ => ⟨rfl, fun _ h => h, Nat.le_refl _⟩, fun h => h⟩
  | @shutdown x b =>
    unfold maybeShutdown
    split
    · exact Held.keeps (.rfl' rfl rfl (fun _ h => h) (Nat.le_refl _))
    · split
      · exact Held.keeps (.rfl' rfl rfl (fun _ h => h) (Nat.le_refl _))
      · split <;> exact Held.keeps (.rfl' rfl rfl (fun _ h => h) (Nat.le_refl _))
  | @collect x b =>
    refine ((Held.collect c x b).trans ?_).keeps
    exact .rfl' rfl rfl (fun _ h => h) (Nat.le_refl _)
  | @reap x b => exact (Held.reap c x b).keeps
  | dial now d hr =>
    rcases dialOne_cases (cfg := cfg) (env := env) (X := X) now c d with ⟨e, _⟩ | ⟨e, _⟩
    · rw [e]
      exact ⟨⟨_, rfl⟩, fun _ => ⟨rfl, fun _ h => h, Nat.le_refl _⟩, fun h => h⟩
    · rw [e]; exact ⟨⟨[], by simp⟩, fun h => (by rw [hr] at h; cases h), fun h => h⟩
  | mintOk now => exact ⟨⟨_, rfl⟩, fun _ => ⟨rfl, fun _ h => h, Nat.le_refl _⟩, fun h => h⟩
  | @mintOut x b m sid now =>
    refine Held.keeps (Held.trans (b := (c.takeMint cfg env x m (.outbound sid) now).1)
      ⟨⟨_, rfl⟩, rfl, fun _ h => h, Nat.le_refl _⟩ ?_)
    generalize (c.takeMint cfg env x m (.outbound sid) now).1 = c1
    unfold retireDial
    simp only []
    refine Held.trans (b := { (c1.purge x).purgeConnect x with conns := ((c1.purge x).purgeConnect x).conns.erase x, metas := ((c1.purge x).purgeConnect x).metas.erase x })
      (.rfl' rfl rfl (fun e h => (List.mem_filter.1 h).1) (Nat.le_refl _)) ?_
    refine (Held.complete (cfg := cfg) (env := env) _ x (((c1.purge x).purgeConnect x).metas.get? x) false).trans ?_
    exact .rfl' rfl rfl (fun _ h => h) (Nat.le_refl _)
  | mintIn now => exact ⟨⟨_, rfl⟩, fun _ => ⟨rfl, fun _ h => h, Nat.le_refl _⟩, fun h => h⟩
  | cancel => exact Held.keeps (.rfl' rfl rfl (fun _ h => h) (Nat.le_refl _))

theorem Keeps.first {c c1 : Coord I A} {op : XOp I A} (hf : First cfg env X T c op c1) : Keeps c c1 := by
  cases hf with
  | plain s =>
    exact Keeps.move (cfg := cfg) (env := env) (X := X) (T := T) (N := fun _ _ => True) (L := True) (.book s)
  | gossip src datagram now hr hl =>
    refine ⟨⟨[], (List.append_nil _).symm⟩, fun h => (by rw [hr] at h; cases h), fun _ => ?_⟩
    simp only [List.length_append, List.length_singleton]
    omega
  | encrypt ring =>
    unfold Coord.setEncryption
    split
    · exact Held.keeps (.rfl' rfl rfl (fun _ h => h) (Nat.le_refl _))
    · simp only []
      have : ∀ (l : List Nat) (c : Coord I A), Held c (l.foldl abortFailed c) := by
        intro l
        induction l with
        | nil => intro c; exact .rfl' rfl rfl (fun _ h => h) (Nat.le_refl _)
        | cons a l ih =>
          intro c
          refine Held.trans (b := abortFailed c a) ?_ (ih _)
          exact .rfl' rfl rfl (fun e h => (List.mem_filter.1 h).1) (Nat.le_refl _)
      have h1 : Held c { c with conns := c.conns.map (fun (e : Nat × Bridge I A) => (e.1, e.2.setEncryption ring)), tick := c.tick + 1 } :=
        .rfl' rfl rfl (fun _ h => h) (Nat.le_refl _)
      have h2 := h1.trans (this (T.order c.tick ((c.conns.filter (fun e => !e.2.isFailed)).map Prod.fst)) _)
      refine Held.keeps (h2.trans ?_)
      exact .rfl' rfl rfl (fun _ h => h) (Nat.zero_le _)
  | popAction =>
    unfold pollAction
    split
    · next hc => exact Held.keeps (.rfl' rfl rfl (fun e h => by rw [hc]; exact List.mem_cons_of_mem _ h) (Nat.le_refl _))
    · split <;> exact Held.keeps (.rfl' rfl rfl (fun _ h => h) (Nat.le_refl _))
  | accept src now x =>
    unfold Coord.accept
    simp only []
    split
    · exact Held.keeps (.rfl' rfl rfl (fun _ h => h) (Nat.le_refl _))
    · next hr =>
      split
      · exact Held.keeps (.rfl' rfl rfl (fun _ h => h) (Nat.le_refl _))
      · exact ⟨⟨[], by simp⟩, fun h => absurd h (by simpa using hr), fun h => h⟩
  | leave => exact Held.keeps (.rfl' rfl rfl (fun e h => by cases h) (Nat.le_refl _))
  | _ => exact Held.keeps (.rfl' rfl rfl (fun _ h => h) (Nat.le_refl _))

theorem not_running {t0 : Nat} {e0 : Ep I A} (hnew : Ep.tryNew cfg env t0 = .ok e0) {c c' : Coord I A}
    (h : Shape cfg env e0 c) (h' : Shape cfg env e0 c') (hk : Keeps c c') (hr : c.ep.isRunning = false) :
    c'.ep.isRunning = false := by
  obtain ⟨l, hl⟩ := hk.calls
  rw [h'.ep, hl, List.map_append, Ep.run_append, ← h.ep]
  have hre : Reachable cfg env c.ep := ⟨t0, e0, _, hnew, h.ep⟩
  generalize l.map Prod.snd = l
  revert hre hr
  generalize c.ep = e
  intro hr hre
  induction l generalizing e with
  | nil => exact hr
  | cons op l ih =>
    refine ih _ ?_ (Ep.reachable_step hre op)
    have h0 : e.core.lifecycle ≠ .running := by simpa [Ep.isRunning] using hr
    have := (Ep.frozen_step (env := env) (Ep.reachable_good hre) h0 op).lifecycle
    simp only [Ep.isRunning, this]
    simpa using h0

/-- The coordinator has left. -/
structure Quit (cfg : Cfg I A) (env : Env I A) (e0 : Ep I A) (n : Nat) (c : Coord I A) : Prop where
  shape : Shape cfg env e0 c
  off : c.ep.isRunning = false
  next : c.nextX = n
  conn : c.connects = []
  ing : c.ingress = []

theorem Quit.keeps {t0 : Nat} {e0 : Ep I A} (hnew : Ep.tryNew cfg env t0 = .ok e0) {c c' : Coord I A} {n : Nat}
    (h : Quit cfg env e0 n c) (h' : Shape cfg env e0 c') (hk : Keeps c c') : Quit cfg env e0 n c' := by
  obtain ⟨h1, h2, h3⟩ := hk.quiet h.off
  refine ⟨h', not_running hnew h.shape h' hk h.off, h1.trans h.next, ?_, ?_⟩
  · rw [h.conn] at h2
    exact List.eq_nil_iff_forall_not_mem.2 (fun e he => by cases h2 e he)
  · rw [h.ing] at h3
    exact List.length_eq_zero_iff.1 (Nat.le_zero.1 h3)

theorem Quit.run {t0 : Nat} {e0 : Ep I A} (hnew : Ep.tryNew cfg env t0 = .ok e0) {c : Coord I A} {n : Nat}
    (h : Quit cfg env e0 n c) (ops : List (XOp I A)) : Quit cfg env e0 n (c.run cfg env X T ops) :=
  run_inv (P := Quit cfg env e0 n) (fun hf h => h.keeps hnew (h.shape.first hf (order_mem T)) (.first hf))
    (fun hm h => h.keeps hnew (h.shape.move hm) (.move hm)) h ops

theorem quit_leave {t0 : Nat} {e0 : Ep I A} (hnew : Ep.tryNew cfg env t0 = .ok e0) (cmp : CmpOptions)
    (ops : List (XOp I A)) (now : Nat) (f : Option Bytes) :
    Quit cfg env e0 ((Coord.new e0 cmp).run cfg env X T ops).nextX
      (((Coord.new e0 cmp).run cfg env X T ops).step cfg env X T (.leave now f)).1 := by
  have hs := shape_run (cfg := cfg) (env := env) (X := X) (T := T) e0 cmp ops
  have hs2 := shape_run (cfg := cfg) (env := env) (X := X) (T := T) e0 cmp (ops ++ [.leave now f])
  rw [xrun_snoc] at hs2
  revert hs hs2
  generalize (Coord.new e0 cmp).run cfg env X T ops = c
  intro hs hs2
  have hfold : ∀ (l : List Nat) (c : Coord I A),
      (l.foldl (fun c x => if c.hasBytes x then c.cancel x else c) c).connects = c.connects ∧
      (l.foldl (fun c x => if c.hasBytes x then c.cancel x else c) c).ingress = c.ingress ∧
      (l.foldl (fun c x => if c.hasBytes x then c.cancel x else c) c).nextX = c.nextX ∧
      (l.foldl (fun c x => if c.hasBytes x then c.cancel x else c) c).ep = c.ep := by
    intro l
    induction l with
    | nil => intro c; exact ⟨rfl, rfl, rfl, rfl⟩
    | cons a l ih =>
      intro c
      simp only [List.foldl_cons]
      split
      · exact ih _
      · exact ih _
  have hf := hfold (T.order c.tick ((c.metas.filter (fun e => e.2.outbound)).map Prod.fst))
    { c with lastNow := some now, dials := [], kinds := [], connects := [], ingress := [], tick := c.tick + 1 }
  refine ⟨hs2, ?_, hf.2.2.1, hf.1, hf.2.1⟩
  have hre : Reachable cfg env c.ep := ⟨t0, e0, _, hnew, hs.ep⟩
  have h0 : (c.ep.step cfg env (.leave now f)).1.isRunning = false := by
    by_cases hl : c.ep.core.lifecycle = .running
    · have h1 := Ep.leave_lifecycle (env := env) (Ep.reachable_good hre) hl now f
      have h2 : (c.ep.step cfg env (.leave now f)).1 = (c.ep.leaveWith cfg env now f) := rfl
      simp [Ep.isRunning, h2, h1]
    · simp only [Ep.step, Ep.leaveWith, if_pos hl]; simpa [Ep.isRunning] using hl
  have h1 : c.ep = _ := hf.2.2.2.symm
  rw [h1] at h0
  exact h0

theorem Quit.shut {e0 : Ep I A} {c : Coord I A} {n : Nat} (h : Quit cfg env e0 n c) (op : XOp I A) :
    opens (c.step cfg env X T op).2 = false := by
  cases op with
  | accept src now =>
    have hr : ({ c with lastNow := some now } : Coord I A).ep.isRunning = false := h.off
    simp only [step, accept, hr]
    rfl
  | pollAction =>
    simp only [step, pollAction, h.conn]
    cases takeTeardown c.hasBytes c.teardowns <;> rfl
  | pollIngress => simp only [step, pollIngress, h.ing]; rfl
  | _ => rfl

theorem Quit.outs {t0 : Nat} {e0 : Ep I A} (hnew : Ep.tryNew cfg env t0 = .ok e0) {n : Nat} (ops : List (XOp I A)) :
    ∀ {c : Coord I A}, Quit cfg env e0 n c → ∀ o ∈ c.outs cfg env X T ops, opens o = false := by
  induction ops with
  | nil => intro c _ o ho; cases ho
  | cons op ops ih =>
    intro c h o ho
    rcases List.mem_cons.1 ho with rfl | ho
    · exact h.shut op
    · exact ih (h.run hnew [op]) o ho

/-- An exchange that is held was held before, or is new. -/
theorem held_move {e0 : Ep I A} {c c' : Coord I A} (hs : Shape cfg env e0 c) (hm : Move cfg env X T N L c c') {x : Nat}
    (hn : c'.nextX = c.nextX) (h : c.metas.get? x = none) : c'.metas.get? x = none := by
  have hv := view_move (K := fun _ _ => True) hs hm (fun _ _ _ _ _ _ _ _ => trivial) x
  have e1 : (c.view x).info = none := h
  have e2 : (c'.view x).born = (c.view x).born := by simp only [view, hn]
  show (c'.view x).info = none
  revert hv e1 e2
  generalize c.view x = v
  generalize c'.view x = v'
  intro hv e1 e2
  cases hv with
  | shutdown h1 h2 h3 h4 => rw [h4] at e1; cases e1
  | mintOk _ _ h1 h2 => rw [h2] at e1; cases e1
  | dial _ _ _ _ _ hb => rw [hb] at e2; cases e2
  | refl => exact e1
  | call => exact e1
  | bridge => exact e1
  | commit => exact e1
  | collect => exact e1
  | _ => rfl

theorem held_first {e0 : Ep I A} {c c' : Coord I A} {op : XOp I A} (hs : Shape cfg env e0 c)
    (hf : First cfg env X T c op c') {x : Nat} (hn : c'.nextX = c.nextX) (h : c.metas.get? x = none) :
    c'.metas.get? x = none := by
  have hv := view_first hs hf x
  have e1 : (c.view x).info = none := h
  have e2 : (c'.view x).born = (c.view x).born := by simp only [view, hn]
  show (c'.view x).info = none
  revert hv e1 e2
  generalize c.view x = v
  generalize c'.view x = v'
  generalize c'.ring = r'
  generalize c.ring = r
  generalize emitOf x (c.step cfg env X T op).2 = em
  intro hv e1 e2
  clear hf
  cases hv with
  | accept _ _ _ hb => rw [hb] at e2; cases e2
  | _ => exact e1

theorem Quit.held {t0 : Nat} {e0 : Ep I A} (hnew : Ep.tryNew cfg env t0 = .ok e0) {c : Coord I A} {n x : Nat}
    (h : Quit cfg env e0 n c) (hx : c.metas.get? x = none) (ops : List (XOp I A)) :
    (c.run cfg env X T ops).metas.get? x = none := by
  refine (run_inv (P := fun c => Quit cfg env e0 n c ∧ c.metas.get? x = none) ?_ ?_ ⟨h, hx⟩ ops).2
  · rintro c op c1 hf ⟨h1, h2⟩
    have h3 := h1.keeps hnew (h1.shape.first hf (order_mem T)) (.first hf)
    exact ⟨h3, held_first h1.shape hf (by rw [h3.next, h1.next]) h2⟩
  · rintro N L c c' hm ⟨h1, h2⟩
    have h3 := h1.keeps hnew (h1.shape.move hm) (.move hm)
    exact ⟨h3, held_move h1.shape hm (by rw [h3.next, h1.next]) h2⟩

theorem leave_held {t0 : Nat} {e0 : Ep I A} (hnew : Ep.tryNew cfg env t0 = .ok e0) (cmp : CmpOptions)
    (ops : List (XOp I A)) (now : Nat) (f : Option Bytes) {x : Nat}
    (hx : ((Coord.new e0 cmp).run cfg env X T ops).metas.get? x = none) :
    (((Coord.new e0 cmp).run cfg env X T ops).step cfg env X T (.leave now f)).1.metas.get? x = none := by
  revert hx
  generalize (Coord.new e0 cmp).run cfg env X T ops = c
  intro hx
  have : ∀ (l : List Nat) (c : Coord I A), c.metas.get? x = none →
      (l.foldl (fun c x => if c.hasBytes x then c.cancel x else c) c).metas.get? x = none := by
    intro l
    induction l with
    | nil => intro c h; exact h
    | cons a l ih =>
      intro c h
      simp only [List.foldl_cons]
      split
      · refine ih _ ?_
        show (c.metas.erase a).get? x = none
        rw [Map.get?_erase]
        split
        · rfl
        · exact h
      · exact ih _ h
  exact this _ { c with lastNow := some now, dials := [], kinds := [], connects := [], ingress := [], tick := c.tick + 1 } hx

/-! ### Bounds -/

omit [DecidableEq A] in
theorem guests_erase (m : Map Nat (XMeta A)) (x : Nat) : guests (m.erase x) ≤ guests m := by
  unfold guests Map.erase
  rw [List.filter_filter, List.filter_congr (fun _ _ => Bool.and_comm _ _), ← List.filter_filter]
  exact List.length_filter_le _ _

omit [DecidableEq A] in
theorem guests_insert (m : Map Nat (XMeta A)) (x : Nat) (v : XMeta A)
    (h : v.outbound = false → ∃ w, m.get? x = some w ∧ w.outbound = false) : guests (m.insert x v) ≤ guests m := by
  unfold guests
  induction m with
  | nil =>
    cases ho : v.outbound with
    | true => simp [Map.insert, ho]
    | false =>
      obtain ⟨w, hw, _⟩ := h ho
      simp at hw
  | cons e m ih =>
    obtain ⟨k, w⟩ := e
    by_cases hk : k = x
    · subst hk
      simp only [Map.insert, if_true, List.filter_cons]
      cases ho : v.outbound with
      | true => simp; split <;> simp
      | false =>
        obtain ⟨w', hw, hwo⟩ := h ho
        simp only [Map.get?_cons, if_true, Option.some.injEq] at hw
        subst hw
        simp [hwo]
    · simp only [Map.insert, if_neg hk, List.filter_cons]
      have := ih (fun ho => by
        obtain ⟨w', hw, hwo⟩ := h ho
        rw [Map.get?_cons, if_neg hk] at hw
        exact ⟨w', hw, hwo⟩)
      split <;> simp <;> exact this

omit [DecidableEq A] in
theorem guests_new (m : Map Nat (XMeta A)) (x : Nat) (v : XMeta A) : guests (m.insert x v) ≤ guests m + 1 := by
  unfold guests
  induction m with
  | nil => exact Nat.le_trans (List.length_filter_le _ _) (by simp [Map.insert])
  | cons e m ih =>
    obtain ⟨k, w⟩ := e
    by_cases hk : k = x
    · subst hk
      simp only [Map.insert, if_true, List.filter_cons]
      split <;> split <;> simp <;> omega
    · simp only [Map.insert, if_neg hk, List.filter_cons]
      by_cases ho : (!w.outbound) = true
      · simp only [ho, if_true, List.length_cons]; omega
      · simp only [ho, if_false, Bool.false_eq_true]; exact ih

theorem complete_metas (c : Coord I A) (x : Nat) (m : Option (XMeta A)) (ok : Bool) :
    (c.complete cfg env x m ok).metas = c.metas := by
  unfold complete
  split
  · rfl
  · split <;> rfl

omit [DecidableEq I] [DecidableEq A] in
theorem collect_metas (c : Coord I A) (x : Nat) (b : Bridge I A) : (c.collect x b).1.metas = c.metas := by
  unfold collect
  split
  · rfl
  · split <;> rfl

theorem reap_metas (c : Coord I A) (x : Nat) (b : Bridge I A) : (c.reap cfg env x b).metas = c.metas.erase x := by
  unfold Coord.reap
  simp only []
  have h1 : (if b.isFailed = true then c.purge x else (c.collect x b).1).metas = c.metas := by
    split
    · rfl
    · exact collect_metas c x b
  revert h1
  generalize (if b.isFailed = true then c.purge x else (c.collect x b).1) = c1
  intro h1
  split
  · simp only [teardown, callEp, complete_metas, h1]
  · simp only [teardown, complete_metas, h1]

theorem guests_move {c c' : Coord I A} (hm : Move cfg env X T N L c c') : guests c'.metas ≤ guests c.metas := by
  cases hm with
  | book s => rw [s.metas]
  | @shutdown x b =>
    unfold maybeShutdown
    split
    · exact Nat.le_refl _
    · split
      · exact Nat.le_refl _
      · next m hm =>
        split
        · exact Nat.le_refl _
        · exact guests_insert _ _ _ (fun ho => ⟨m, hm, ho⟩)
  | @collect x b =>
    show guests (c.collect x b).1.metas ≤ _
    rw [collect_metas]
  | @reap x b => rw [reap_metas]; exact guests_erase _ _
  | dial now d hr =>
    rcases dialOne_cases (cfg := cfg) (env := env) (X := X) now c d with ⟨e, _⟩ | ⟨e, _⟩
    · rw [e]; exact Nat.le_refl _
    · rw [e]; exact guests_insert _ _ _ (fun ho => by cases ho)
  | mintOk now h1 h2 h3 h4 => exact guests_insert _ _ _ (fun ho => ⟨_, h4, ho⟩)
  | @mintOut x b m sid now h1 h2 h3 h4 =>
    show guests (complete cfg env _ x _ false).metas ≤ _
    rw [complete_metas]
    exact Nat.le_trans (guests_erase _ _) (guests_insert _ _ _ (fun ho => ⟨_, h4, ho⟩))
  | mintIn now h1 h2 h3 h4 =>
    exact Nat.le_trans (guests_erase _ _) (guests_insert _ _ _ (fun ho => ⟨_, h4, ho⟩))
  | cancel => exact guests_erase _ _
  | _ => exact Nat.le_refl _

theorem guests_first {c c1 : Coord I A} {op : XOp I A} (hf : First cfg env X T c op c1) {n : Nat}
    (hn : X.maxInbound = some n) (h : guests c.metas ≤ n) : guests c1.metas ≤ n := by
  cases hf with
  | plain s => rw [s.metas]; exact h
  | encrypt ring =>
    unfold Coord.setEncryption
    split
    · exact h
    · simp only []
      have : ∀ (l : List Nat) (c : Coord I A), (l.foldl abortFailed c).metas = c.metas := by
        intro l
        induction l with
        | nil => intro c; rfl
        | cons a l ih => intro c; exact ih _
      rw [this]; exact h
  | popAction =>
    unfold pollAction
    split
    · exact h
    · split <;> exact h
  | accept src now x hx =>
    unfold Coord.accept at hx ⊢
    simp only [] at hx ⊢
    split
    · exact h
    · split
      · exact h
      · next hc =>
        rw [hn] at hc
        have hc' : guests c.metas < n := by simpa [guests] using hc
        exact Nat.le_trans (guests_new _ _ _) hc'
  | _ => exact h

theorem guests_run (e0 : Ep I A) (cmp : CmpOptions) (ops : List (XOp I A)) {n : Nat} (hn : X.maxInbound = some n) :
    guests ((Coord.new e0 cmp).run cfg env X T ops).metas ≤ n :=
  run_inv (P := fun c => guests c.metas ≤ n) (fun hf h => guests_first hf hn h)
    (fun hm h => Nat.le_trans (guests_move hm) h) (Nat.zero_le _) ops

theorem ingress_run (e0 : Ep I A) (cmp : CmpOptions) (ops : List (XOp I A)) :
    ((Coord.new e0 cmp).run cfg env X T ops).ingress.length ≤ MAX_INGRESS :=
  run_inv (P := fun c => c.ingress.length ≤ MAX_INGRESS) (fun hf h => (Keeps.first hf).ingress h)
    (fun hm h => (Keeps.move hm).ingress h) (Nat.zero_le _) ops

end Coord
end Verif
