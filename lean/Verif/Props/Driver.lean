import Verif.Proof.CoordDrive
import Verif.Example.Coord
/-
C75, C76: what the driver of the connections is handed.
-/
namespace Verif.Props
open Verif Spec Coord
variable {I A : Type} [DecidableEq I] [DecidableEq A] {cfg : Cfg I A} {env : Env I A} {X : XCfg} {T : TEnv}

theorem mem_downs {t : Teardown} {l : List (XEmit A)} (h : t ∈ downs l) : .down t ∈ l := by
  induction l with
  | nil => cases h
  | cons a l ih =>
    cases a with
    | down t' =>
      rcases List.mem_cons.1 h with e | e
      · subst e; exact List.mem_cons_self ..
      · exact List.mem_cons_of_mem _ (ih e)
    | connect => exact List.mem_cons_of_mem _ (ih h)
    | bytes => exact List.mem_cons_of_mem _ (ih h)

theorem downs_mem {t : Teardown} {l : List (XEmit A)} (h : .down t ∈ l) : t ∈ downs l := by
  induction l with
  | nil => cases h
  | cons a l ih =>
    cases a with
    | down t' =>
      rcases List.mem_cons.1 h with e | e
      · cases e; exact List.mem_cons_self ..
      · exact List.mem_cons_of_mem _ (ih e)
    | connect =>
      rcases List.mem_cons.1 h with e | e
      · cases e
      · exact ih e
    | bytes =>
      rcases List.mem_cons.1 h with e | e
      · cases e
      · exact ih e

/-- C75. What the driver is handed for an exchange is a well-formed course of one connection: at most one request to
open it; no bytes, and no request to open it, once it was told to half-close, close or abort; at most one half-close,
before any other teardown; and a close or an abort at the end, never both. -/
theorem C75_orderly {t0 : Nat} {e0 : Ep I A} (hnew : Ep.tryNew cfg env t0 = .ok e0) (cmp : CmpOptions)
    (ops : List (XOp I A)) (x : Nat) : Orderly (handed x ((Coord.new e0 cmp).outs cfg env X T ops)) := by
  have h := drive_run (cfg := cfg) (env := env) (X := X) (T := T) hnew cmp ops x
  generalize handed x ((Coord.new e0 cmp).outs cfg env X T ops) = E at h ⊢
  obtain ⟨pre, p1, p2⟩ := h.tail
  obtain ⟨half, full, h1, h2, _, _⟩ := h.tear
  have hc : dialled pre ≤ 1 := by
    have := h.conn
    rw [p1, dialled_append] at this
    omega
  have key : ∃ half' full', downs E = half' ++ full' ∧ Course half' full' := by
    rcases List.append_eq_append_iff.1 h1 with ⟨l, e1, e2⟩ | ⟨l, e1, e2⟩
    · refine ⟨downs E, [], by simp, ?_, .inl rfl⟩
      rcases h2.1 with e | e
      · rw [e] at e1
        exact .inl (List.append_eq_nil_iff.1 e1.symm).1
      · rw [e] at e1
        cases hd : downs E with
        | nil => exact .inl rfl
        | cons a d =>
          rw [hd] at e1
          simp only [List.cons_append, List.cons.injEq, List.nil_eq, List.append_eq_nil_iff] at e1
          rw [← e1.1, e1.2.1]
          exact .inr rfl
    · refine ⟨half, l, e1, h2.1, ?_⟩
      rcases h2.2 with e | e | e | e <;> rw [e] at e2
      · exact .inl (List.append_eq_nil_iff.1 e2.symm).1
      all_goals
        cases l with
        | nil => exact .inl rfl
        | cons a l =>
          simp only [List.cons_append, List.cons.injEq] at e2
          obtain ⟨e3, e4⟩ := e2
          subst e3
          first
            | (have := (List.append_eq_nil_iff.1 e4.symm).1
               subst this
               simp)
            | (cases l with
               | nil => simp
               | cons a l =>
                 simp only [List.cons_append, List.cons.injEq] at e4
                 obtain ⟨e5, e6⟩ := e4
                 have := (List.append_eq_nil_iff.1 e6.symm).1
                 subst this e5
                 simp)
  obtain ⟨half', full', k1, k2⟩ := key
  exact ⟨pre, half', full', by rw [← k1]; exact p1, p2, hc, k2.1, k2.2⟩

/-- C75. No connection is forgotten: once the coordinator no longer holds an exchange it accepted, or for which it had
the driver do anything, and the driver has taken everything it was to be handed, the driver was told to close or to abort
that connection. -/
theorem C75_closed {t0 : Nat} {e0 : Ep I A} (hnew : Ep.tryNew cfg env t0 = .ok e0) (cmp : CmpOptions)
    (ops : List (XOp I A)) (x : Nat)
    (hx : (∃ pre src t post, ops = pre ++ .accept src t :: post ∧
        (((Coord.new e0 cmp).run cfg env X T pre).step cfg env X T (.accept src t)).2 = .accepted (some x)) ∨
      handed x ((Coord.new e0 cmp).outs cfg env X T ops) ≠ [])
    (hgone : ((Coord.new e0 cmp).run cfg env X T ops).metas.get? x = none)
    (hb : (((Coord.new e0 cmp).run cfg env X T ops).step cfg env X T .pollTransport).2 = .bytes none)
    (ha : (((Coord.new e0 cmp).run cfg env X T ops).step cfg env X T .pollAction).2 = .action none) :
    .down .close ∈ handed x ((Coord.new e0 cmp).outs cfg env X T ops) ∨
      .down .abort ∈ handed x ((Coord.new e0 cmp).outs cfg env X T ops) := by
  have h := drive_run (cfg := cfg) (env := env) (X := X) (T := T) hnew cmp ops x
  have hs := shape_run (cfg := cfg) (env := env) (X := X) (T := T) e0 cmp ops
  have hborn : (((Coord.new e0 cmp).run cfg env X T ops).view x).born = true := by
    rcases hx with ⟨pre, src, t, post, e, hx⟩ | hx
    · subst e
      have h1 : (((Coord.new e0 cmp).run cfg env X T (pre ++ [.accept src t])).view x).born = true := by
        rw [xrun_snoc]
        revert hx
        generalize (Coord.new e0 cmp).run cfg env X T pre = c
        intro hx
        simp only [step, XOut.accepted.injEq] at hx ⊢
        unfold Coord.accept at hx ⊢
        simp only [] at hx ⊢
        split at hx
        · cases hx
        · split at hx
          · cases hx
          · next g1 g2 =>
            simp only [Option.some.injEq] at hx
            rw [if_neg g1, if_neg g2]
            subst hx
            simp [Coord.view]
      have := view_run_from (cfg := cfg) (env := env) (X := X) (T := T) (P := fun _ _ v => v.born = true) hnew cmp
        (pre ++ [.accept src t]) x h1 (fun h ring v op em ring' v' _ _ _ hp hf => by cases hf <;> first | exact hp | rfl)
        (fun N L h ring v v' _ _ hp hf => by cases hf <;> first | exact hp | rfl) post
      simpa using this
    · cases hn : (((Coord.new e0 cmp).run cfg env X T ops).view x).born with
      | true => rfl
      | false => exact absurd (h.unborn hn) hx
  have hbr : (((Coord.new e0 cmp).run cfg env X T ops).view x).br = none := (hs.keys x).2 hgone
  obtain ⟨half, full, h1, h2, _, h4⟩ := h.tear
  have hfull := h4 hborn hbr
  have hdown : (((Coord.new e0 cmp).run cfg env X T ops).view x).down = [] := by
    revert hb ha
    generalize (Coord.new e0 cmp).run cfg env X T ops = c
    intro hb ha
    have ho : c.out = [] := by
      simp only [step, XOut.bytes.injEq, pollTransport] at hb
      split at hb
      · next h => exact h
      · cases hb
    simp only [step, XOut.action.injEq, pollAction] at ha
    split at ha
    · cases ha
    · split at ha
      · next ht =>
        simp only [Coord.view]
        cases hd : c.teardowns with
        | nil => rfl
        | cons e l =>
          rw [hd, takeTeardown, if_neg (by simp [hasBytes, ho])] at ht
          cases ht
      · cases ha
  rw [hdown, List.append_nil] at h1
  rcases h2.2 with e | e | e | e
  · exact absurd e hfull
  · exact .inl (mem_downs (by rw [h1, e]; simp))
  · exact .inr (mem_downs (by rw [h1, e]; simp))
  · exact .inr (mem_downs (by rw [h1, e]; simp))

/-- C76. The bytes handed to the driver for an exchange go on exactly where the bytes before them ended, in the label
header followed by at most one unit, and that unit is sealed under the keyring in force when they are handed out. What it
carries, apart from compression, is a request an endpoint opened an exchange for, an endpoint's answer to what arrived on
one, or the acknowledgement of a ping (`Spoken … false` admits all three). -/
theorem C76_sealed {t0 : Nat} {e0 : Ep I A} (hnew : Ep.tryNew cfg env t0 = .ok e0) (cmp : CmpOptions)
    (ops : List (XOp I A)) (x : Nat) (peer : A) (b : Bytes)
    (hb : (((Coord.new e0 cmp).run cfg env X T ops).step cfg env X T .pollTransport).2 = .bytes (some (x, peer, b))) :
    ∃ u, (u = [] ∨ SealedUnit T.B (Spoken cfg env false) ((Coord.new e0 cmp).run cfg env X T ops).ring u) ∧
      written (handed x ((Coord.new e0 cmp).outs cfg env X T ops)) ++ b <+: header X.label ++ u := by
  have h := drive_run (cfg := cfg) (env := env) (X := X) (T := T) hnew cmp ops x
  have hout : ∃ rest, (((Coord.new e0 cmp).run cfg env X T ops).view x).out = (peer, b) :: rest := by
    revert hb
    generalize (Coord.new e0 cmp).run cfg env X T ops = c
    intro hb
    simp only [step, XOut.bytes.injEq, pollTransport] at hb
    split at hb
    · cases hb
    · next e rest he =>
      simp only [Option.some.injEq] at hb
      subst hb
      exact ⟨(rest.filter (fun e => e.1 = x)).map Prod.snd, by simp [Coord.view, he]⟩
  obtain ⟨rest, hout⟩ := hout
  obtain ⟨r, u, h1, h2, h3⟩ := h.bytes
  rw [h3 (by rw [hout]; simp)] at h1
  refine ⟨u, h1, List.IsPrefix.trans ?_ h2⟩
  rw [hout]
  exact ⟨flat rest, by simp [flat]⟩

/-- C76. A connection that is closed in order, with no change of keys since the exchange was last held, has carried the
whole header and the whole unit: nothing is cut off. If this node dialled it, the unit was sent, and what it carries is a
request an endpoint opened an exchange for (`Spoken … true` admits nothing else). -/
theorem C76_complete {t0 : Nat} {e0 : Ep I A} (hnew : Ep.tryNew cfg env t0 = .ok e0) (cmp : CmpOptions)
    (pre ops : List (XOp I A)) (x : Nat) {m : XMeta A}
    (hheld : ((Coord.new e0 cmp).run cfg env X T pre).metas.get? x = some m)
    (hkeys : ∀ op ∈ ops, ∀ r, op ≠ .setEncryption r)
    (hclose : .down .close ∈ handed x ((Coord.new e0 cmp).outs cfg env X T (pre ++ ops))) :
    ∃ u, (SealedUnit T.B (Spoken cfg env m.outbound) ((Coord.new e0 cmp).run cfg env X T (pre ++ ops)).ring u ∨ (m.outbound = false ∧ u = [])) ∧
      written (handed x ((Coord.new e0 cmp).outs cfg env X T (pre ++ ops))) = header X.label ++ u := by
  have h := drive_run (cfg := cfg) (env := env) (X := X) (T := T) hnew cmp (pre ++ ops) x
  have hw := whole_run (cfg := cfg) (env := env) (X := X) (T := T) hnew cmp pre ops x hheld hkeys
  have hd := downs_mem hclose
  obtain ⟨u, h1, h2⟩ := hw.all (List.mem_append_left _ hd)
  refine ⟨u, h1, ?_⟩
  rw [(h.quiet (fun e => by rw [e] at hd; cases hd)).1] at h2
  simpa [flat] using h2

/-- The join: connect, the sealed request, half-close, close. Nothing is left, and the exchange is no longer held. -/
example :
    let ops := Ex.joinOps ++ [.pollAction]
    let c := Ex.c0.run Ex.cfg Ex.env Ex.X0 Ex.T0 ops
    handed 0 (Ex.c0.outs Ex.cfg Ex.env Ex.X0 Ex.T0 ops) =
      [.bytes Ex.wire, .connect 101 1, .down .shutdown, .down .close] ∧
    c.metas.get? 0 = none ∧ c.out = [] ∧ c.connects = [] ∧ c.teardowns = [] ∧
    ((Ex.c0.run Ex.cfg Ex.env Ex.X0 Ex.T0 Ex.dialOps).metas.get? 0).map XMeta.outbound = some true ∧
    (∀ op ∈ ops.drop Ex.dialOps.length, (match op with | .setEncryption _ => false | _ => true) = true) := by decide +kernel

/-- A change of keys while the request waits: the bytes are dropped, and the connection is aborted, after the
half-close that was queued behind them. -/
example :
    handed 0 (Ex.c0.outs Ex.cfg Ex.env Ex.X0 Ex.T0
      (Ex.dialOps ++ [.pollAction, .setEncryption none, .timeout 6, .pollTransport, .pollAction, .pollAction, .pollAction])) =
      [.connect 101 1, .down .shutdown, .down .abort, .down .abort] := by decide +kernel

/-- An accepted exchange ends too: the answer, then the close. -/
example :
    handed 0 (Ex.c1.outs Ex.cfg1 Ex.env Ex.X0 Ex.T0
      (Ex.acceptOps ++ [.pollTransport, .pollTransport, .pollAction, .pollAction, .pollAction])) =
      [.bytes Ex.answer, .down .close] := by decide +kernel

end Verif.Props
