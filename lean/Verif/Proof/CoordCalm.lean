import Verif.Proof.CoordShape
/-
Between two calls every exchange is at rest: what it received was committed, and no deadline that has passed
is left. During a call this holds outside the exchanges marked for pumping.
-/
namespace Verif
namespace Coord
variable {I A : Type} [DecidableEq I] [DecidableEq A] {cfg : Cfg I A} {env : Env I A} {X : XCfg} {T : TEnv}
variable {Q : Bridge I A → Prop}

theorem But.runTick {now : Nat} (hQ : Rests now Q) {c : Coord I A} (h : But Q c.dirty c) :
    But Q [] (c.runTick cfg env X T now) := by
  unfold Coord.runTick
  have h1 := (But.pump (cfg := cfg) (env := env) (T := T) hQ h).1.dirty
  have h2 : But Q ((c.pump cfg env T now).callEp cfg env none (.timeout now)).1.dirty
    ((c.pump cfg env T now).callEp cfg env none (.timeout now)).1 := h1
  exact But.collectTransmits hQ (But.pump hQ (But.mintAll now (But.serviceDials now (But.mintAll now h2)))).1

theorem But.flush {now : Nat} (hQ : Rests now Q) {c : Coord I A} (h : But Q c.dirty c) :
    But Q [] (c.flush cfg env T now) := by
  unfold Coord.flush
  exact But.collectTransmits hQ (But.pump hQ (But.mintAll now (But.pump hQ h).1.dirty)).1

theorem But.launch {now : Nat} (hQ : Rests now Q) (sid : Nat) (kind : ExKind) {c : Coord I A} (h : But Q c.dirty c) :
    But Q [] (c.launch cfg env X T sid kind now) := by
  unfold Coord.launch
  exact But.flush hQ (But.serviceDials now (c := { c with kinds := c.kinds.insert sid kind }) h)

/-- All bridges are calm. -/
def AllCalm (c : Coord I A) : Prop := But Bridge.Calm [] c

theorem calm_rests (now : Nat) : Rests now (Bridge.Calm (I := I) (A := A)) := ⟨fun _ _ h _ => h, fun _ h => h⟩

theorem runTick_calm (now : Nat) {c : Coord I A} (h : But Bridge.Calm c.dirty c) : AllCalm (c.runTick cfg env X T now) :=
  But.runTick (calm_rests now) h

theorem launch_calm (sid : Nat) (kind : ExKind) (now : Nat) {c : Coord I A} (h : But Bridge.Calm c.dirty c) :
    AllCalm (c.launch cfg env X T sid kind now) := But.launch (calm_rests now) sid kind h

theorem modify_calm {c : Coord I A} (h : AllCalm c) (x : Nat) (f : Bridge I A → Bridge I A) (t : Option Nat) :
    But Bridge.Calm (idInsert x c.dirty)
      ({ c with lastNow := t, conns := c.conns.modify x f, dirty := idInsert x c.dirty } : Coord I A) := by
  intro y b hb hy
  have hyx : y ≠ x := fun e => hy (mem_idInsert.2 (.inl e))
  refine h y b ?_ (by simp)
  simp only [Map.get?_modify] at hb
  rw [if_neg (by first | exact hyx | exact fun e => hyx e.symm)] at hb
  exact hb

theorem step_calm (c : Coord I A) (op : XOp I A) (h : AllCalm c) : AllCalm (c.step cfg env X T op).1 := by
  cases op with
  | data x bytes eof now => exact runTick_calm now (modify_calm h x _ _)
  | dialFailed x now => exact runTick_calm now (modify_calm h x _ _)
  | transportError x now => exact runTick_calm now (modify_calm h x _ _)
  | accept src now =>
    simp only [step, accept]
    split
    · exact h
    · split
      · exact h
      · intro y b hb hy
        simp only [Map.get?_insert] at hb
        split at hb
        · cases hb
          refine .open_ ?_
          rintro (h | h) <;> simp [Bridge.new, Bridge.isTerminal] at h
        · exact h y b hb hy
  | startPushPull peer kind now => exact launch_calm _ _ _ (But.dirty h)
  | startReliablePing pid peer seq d now => exact launch_calm _ _ _ (But.dirty h)
  | startUserMessage peer payload now =>
    simp only [step, startUserMessage]
    split
    · exact h
    · exact launch_calm _ _ _ (But.dirty h)
  | timeout now =>
    simp only [step, timeout]
    exact runTick_calm now (But.mono (l := []) (c := c) h (fun _ _ h => h) (by simp))
  | gossip src datagram now =>
    simp only [step, gossip]
    split
    · exact h
    · split <;> exact h
  | leave now farewell =>
    simp only [step, leave]
    have h0 : AllCalm ({ c with lastNow := some now, dials := [], kinds := [], connects := [], ingress := [], tick := c.tick + 1 } : Coord I A) := h
    have : ∀ (l : List Nat) (c1 : Coord I A), AllCalm c1 →
        AllCalm (l.foldl (fun c x => if c.hasBytes x = true then c.cancel x else c) c1) := by
      intro l
      induction l with
      | nil => intro c1 h; exact h
      | cons x l ih =>
        intro c1 h
        simp only [List.foldl_cons]
        refine ih _ ?_
        split
        · refine But.mono h (fun y b hb => ?_) (by simp)
          simp only [cancel, teardown, purge, Map.get?_erase] at hb
          split at hb
          · cases hb
          · exact hb
        · exact h
    exact this _ _ h0
  | setEncryption ring =>
    simp only [step, setEncryption]
    split
    · exact h
    · have hA := abortFailed_fold (T.order c.tick ((c.conns.filter (fun e => !e.2.isFailed)).map Prod.fst))
        ({ c with conns := c.conns.map (fun (e : Nat × Bridge I A) => (e.1, e.2.setEncryption ring)), tick := c.tick + 1 } : Coord I A)
      obtain ⟨_, _, _, a4, _⟩ := hA
      intro y b hb hy
      have hb := (congrArg (fun m => Map.get? m y) a4).symm.trans hb
      have hb := (get?_map (fun b => Bridge.setEncryption b ring) c.conns y).symm.trans hb
      rw [Option.map_eq_some_iff] at hb
      obtain ⟨b0, h0, rfl⟩ := hb
      exact Bridge.Calm.fail (b := { b0 with ring := ring }) (h y b0 h0 hy) _
  | setCompression cmp =>
    simp only [step, setCompression]
    intro y b hb hy
    have hb := (get?_map (fun b => Bridge.setCompression b cmp) c.conns y).symm.trans hb
    rw [Option.map_eq_some_iff] at hb
    obtain ⟨b0, h0, rfl⟩ := hb
    exact h y b0 h0 hy
  | pollTransport => simp only [step, pollTransport]; split <;> exact h
  | pollAction =>
    simp only [step, pollAction]
    split
    · exact h
    · split <;> exact h
  | pollIngress => simp only [step, pollIngress]; split <;> exact h
  | pollEvent =>
    simp only [step, pollEvent]
    have : ∀ (n : Nat) (c1 : Coord I A), AllCalm c1 → AllCalm (pollEventLoop cfg env n c1).1 := by
      intro n
      induction n with
      | zero => intro c1 h; exact h
      | succ n ih =>
        intro c1 h
        simp only [pollEventLoop]
        split
        · exact h
        · exact ih _ h
        · exact h
    exact this _ _ h
  | requeueDial sid peer d now => simp only [step, requeueDial]; split <;> exact h
  | direct d => exact h

/-- Between two calls, no bridge whose receive half is closed holds an uncommitted payload. -/
theorem run_calm (e0 : Ep I A) (cmp : CmpOptions) (ops : List (XOp I A)) :
    AllCalm ((Coord.new e0 cmp).run cfg env X T ops) := by
  have : ∀ (ops : List (XOp I A)) (c : Coord I A), AllCalm c → AllCalm (c.run cfg env X T ops) := by
    intro ops
    induction ops with
    | nil => intro c h; exact h
    | cons op ops ih => intro c h; exact ih _ (step_calm c op h)
  exact this ops _ (by intro x b hb; simp [Coord.new] at hb)

theorem xrun_snoc (c : Coord I A) (ops : List (XOp I A)) (op : XOp I A) :
    c.run cfg env X T (ops ++ [op]) = ((c.run cfg env X T ops).step cfg env X T op).1 := by
  simp [Coord.run, List.foldl_append]

end Coord
end Verif
