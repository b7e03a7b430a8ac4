import Verif.Model.Coord
import Verif.Proof.Map
/-
Case analyses of the bridge's functions.
-/
namespace Verif.Bridge
variable {I A : Type} {cfg : Cfg I A} {env : Env I A} {T : TEnv}

theorem terminal_iff (b : Bridge I A) :
    b.isTerminal = true ↔ b.phase = .bothClosed ∨ b.isFailed = true := by
  unfold isTerminal isFailed
  cases b.phase <;> simp

theorem failed_iff (b : Bridge I A) : b.isFailed = true ↔ ∃ r, b.phase = .failed r := by
  unfold isFailed
  cases b.phase <;> simp

theorem fail_failed (b : Bridge I A) (r : LinkFail) : (b.fail r).isFailed = true := by
  unfold fail
  split
  · assumption
  · rfl

theorem failWithRetire_failed (b : Bridge I A) (r : LinkFail) : (b.failWithRetire r).isFailed = true :=
  fail_failed _ r

theorem terminal_of_failed {b : Bridge I A} (h : b.isFailed = true) : b.isTerminal = true :=
  (terminal_iff b).2 (.inr h)

/-- The outcomes of `closeSend`. -/
inductive CloseSend (b : Bridge I A) (s : Stream I A) : Bridge I A → Prop
  | failed : s.isFailed = true → CloseSend b s (b.failWithRetire .transport)
  | open_ : s.isFailed = false → (b.finSent = true ∨ b.isFailed = true ∨ (b.sentAny = false ∧ s.isDone = false)) →
      CloseSend b s b
  | closed : s.isFailed = false → b.finSent = false → b.isFailed = false →
      (b.sentAny = true ∨ s.isDone = true) → CloseSend b s { b with finSent := true }.observeSendFin

theorem closeSend_cases (b : Bridge I A) (s : Stream I A) : CloseSend b s (b.closeSend s) := by
  unfold closeSend
  by_cases h : s.isFailed = true
  · rw [if_pos h]; exact .failed h
  · rw [if_neg h]
    by_cases h2 : (!b.finSent && !b.isFailed && (b.sentAny || s.isDone)) = true
    · rw [if_pos h2]
      simp at h2
      exact .closed (by simpa using h) h2.1.1 h2.1.2 h2.2
    · rw [if_neg h2]
      refine .open_ (by simpa using h) ?_
      cases hf : b.finSent <;> cases hg : b.isFailed <;> simp_all

/-- The outcomes of `pumpOut`. -/
inductive PumpOut (T : TEnv) (b : Bridge I A) (now : Nat) : Bridge I A → Prop
  | idle : b.stream = none → (b.phase = .handshaking → now < b.deadline) → PumpOut T b now b
  | expired : b.phase = .handshaking → b.deadline ≤ now → PumpOut T b now (b.fail .timeout)
  | failed (s : Stream I A) : b.stream = some s → (b.isFailed = true ∨ s.isFailed = true) →
      PumpOut T b now (b.failWithRetire .transport)
  | late (s : Stream I A) : b.stream = some s → b.isFailed = false → b.deadline ≤ now → s.isDone = true →
      b.isTerminal = false → PumpOut T b now (b.failWithRetire .timeout)
  | quiet (s s' : Stream I A) (b' : Bridge I A) : b.stream = some s → b.isFailed = false →
      s.isFailed = false → (b.deadline ≤ now → s.isDone = true → b.isTerminal = true) →
      s.pollTransmit now = (s', none) → CloseSend { b with stream := some s' } s' b' →
      PumpOut T b now b'
  | broken (s s' : Stream I A) (chunks : List Bytes) (e : TransformError) : b.stream = some s →
      b.isFailed = false → s.isFailed = false → s.pollTransmit now = (s', some chunks) →
      ({ b with stream := some s', sentAny := true }).unit T chunks.flatten = .error e →
      PumpOut T b now (({ b with stream := some s', sentAny := true }).failWithRetire .transport)
  | sent (s s' : Stream I A) (chunks : List Bytes) (u : Bytes) (b' : Bridge I A) : b.stream = some s →
      b.isFailed = false → s.isFailed = false → (b.deadline ≤ now → s.isDone = true → b.isTerminal = true) →
      s.pollTransmit now = (s', some chunks) →
      ({ b with stream := some s', sentAny := true }).unit T chunks.flatten = .ok u →
      CloseSend { b with stream := some s', sentAny := true, records := b.records.write u, sealed := b.sealed + 1 } s' b' →
      PumpOut T b now b'

theorem pumpOut_cases (b : Bridge I A) (now : Nat) : PumpOut T b now (b.pumpOut T now) := by
  unfold pumpOut
  by_cases h : b.phase = .handshaking ∧ now ≥ b.deadline
  · rw [if_pos h]; exact .expired h.1 h.2
  · rw [if_neg h]
    cases hs : b.stream with
    | none => exact .idle hs (fun hp => Nat.lt_of_not_le (fun hc => h ⟨hp, hc⟩))
    | some s =>
      simp only []
      by_cases h1 : (b.isFailed || s.isFailed) = true
      · rw [if_pos h1]; exact .failed s hs (by simpa using h1)
      · rw [if_neg h1]
        have h1' : b.isFailed = false ∧ s.isFailed = false := by simpa using h1
        by_cases h2 : now ≥ b.deadline ∧ s.isDone ∧ !b.isTerminal
        · rw [if_pos h2]; exact .late s hs h1'.1 h2.1 h2.2.1 (by simpa using h2.2.2)
        · rw [if_neg h2]
          have h2' : b.deadline ≤ now → s.isDone = true → b.isTerminal = true := by
            intro ha hb
            cases hc : b.isTerminal with
            | true => rfl
            | false => exact absurd ⟨ha, hb, by simp [hc]⟩ h2
          cases hp : s.pollTransmit now with
          | mk s' r =>
            cases r with
            | none => exact .quiet s s' _ hs h1'.1 h1'.2 h2' hp (closeSend_cases _ _)
            | some chunks =>
              simp only []
              cases hu : ({ b with stream := some s', sentAny := true } : Bridge I A).unit T chunks.flatten with
              | error e => exact .broken s s' chunks e hs h1'.1 h1'.2 hp hu
              | ok u => exact .sent s s' chunks u _ hs h1'.1 h1'.2 h2' hp hu (closeSend_cases _ _)

section
variable [DecidableEq I] (CI : DataCodec I) (CA : DataCodec A) (T : TEnv)

/-- The outcomes of `pumpIn` on a bridge that is not terminal. -/
inductive PumpIn (b : Bridge I A) (s : Stream I A) (input : Bytes) (eof : Bool) (now : Nat) :
    Bridge I A → Prop
  | rejected : (b.records.recv input).2 = true →
      PumpIn b s input eof now (({ b with records := (b.records.recv input).1 }).failWithRetire .transport)
  | bad (s' : Stream I A) (left : Bytes) (d : Drained) : (b.records.recv input).2 = false →
      drainUnits CI CA T b.ring b.max now ((b.accum ++ (b.records.recv input).1.read.2).length + 1) s
        (b.accum ++ (b.records.recv input).1.read.2) = (s', left, d) → d ≠ .all →
      PumpIn b s input eof now (({ b with records := (b.records.recv input).1.read.1, stream := some s', accum := left }).failWithRetire .decode)
  | more (s' : Stream I A) (left : Bytes) : (b.records.recv input).2 = false →
      drainUnits CI CA T b.ring b.max now ((b.accum ++ (b.records.recv input).1.read.2).length + 1) s
        (b.accum ++ (b.records.recv input).1.read.2) = (s', left, .all) → eof = false →
      PumpIn b s input eof now { b with records := (b.records.recv input).1.read.1, stream := some s', accum := left }
  | cut (s' : Stream I A) (left : Bytes) : (b.records.recv input).2 = false →
      drainUnits CI CA T b.ring b.max now ((b.accum ++ (b.records.recv input).1.read.2).length + 1) s
        (b.accum ++ (b.records.recv input).1.read.2) = (s', left, .all) → eof = true → left ≠ [] →
      PumpIn b s input eof now (({ b with records := (b.records.recv input).1.read.1, stream := some s', accum := left }).failWithRetire .decode)
  | refused (s' s'' : Stream I A) (e : StreamErr) : (b.records.recv input).2 = false →
      drainUnits CI CA T b.ring b.max now ((b.accum ++ (b.records.recv input).1.read.2).length + 1) s
        (b.accum ++ (b.records.recv input).1.read.2) = (s', [], .all) → eof = true →
      s'.handleData CI CA [] now = (s'', some e) →
      PumpIn b s input eof now (({ b with records := (b.records.recv input).1.read.1, stream := some s'', accum := [] }).failWithRetire .decode)
  | ended (s' s'' : Stream I A) : (b.records.recv input).2 = false →
      drainUnits CI CA T b.ring b.max now ((b.accum ++ (b.records.recv input).1.read.2).length + 1) s
        (b.accum ++ (b.records.recv input).1.read.2) = (s', [], .all) → eof = true →
      s'.handleData CI CA [] now = (s'', none) →
      PumpIn b s input eof now (({ b with records := (b.records.recv input).1.read.1, stream := some s'', accum := [] }).observeRecvFin)

theorem pumpIn_cases (b : Bridge I A) (s : Stream I A) (input : Bytes) (eof : Bool) (now : Nat)
    (ht : b.isTerminal = false) :
    PumpIn CI CA T b s input eof now (b.pumpIn CI CA T s input eof now) := by
  unfold pumpIn
  rw [if_neg (by simp [ht])]
  simp only []
  cases hr : (b.records.recv input).2 with
  | true => rw [if_pos rfl]; exact .rejected hr
  | false =>
    rw [if_neg (by simp)]
    obtain ⟨s', left, d, hd⟩ : ∃ s' left d, drainUnits CI CA T b.ring b.max now
      ((b.accum ++ (b.records.recv input).1.read.2).length + 1) s
        (b.accum ++ (b.records.recv input).1.read.2) = (s', left, d) := ⟨_, _, _, rfl⟩
    rw [hd]
    cases d with
    | corrupt => exact .bad s' left _ hr hd (by simp)
    | refused => exact .bad s' left _ hr hd (by simp)
    | all =>
      simp only []
      cases eof with
      | false => simp only [Bool.false_eq_true, if_false]; exact .more s' left hr hd rfl
      | true =>
        simp only [if_true, endOfInput]
        by_cases hl : left = []
        · subst hl
          rw [if_neg (by simp)]
          cases hh : s'.handleData CI CA [] now with
          | mk s'' r =>
            cases r with
            | none => exact .ended s' s'' hr hd rfl hh
            | some e => exact .refused s' s'' e hr hd rfl hh
        · rw [if_pos hl]; exact .cut s' left hr hd rfl hl
end

/-- Late bridges: the receive half is closed, or the bridge is done for. -/
def Late (b : Bridge I A) : Prop := b.phase = .recvClosed ∨ b.isTerminal = true

theorem late_of_failed {b : Bridge I A} (h : b.isFailed = true) : b.Late := .inr (terminal_of_failed h)

theorem observeSendFin_late {b : Bridge I A} (h : b.Late) : b.observeSendFin.Late := by
  unfold Late isTerminal at h
  unfold observeSendFin
  split
  · simp_all
  · exact .inr rfl
  · exact h

theorem closeSend_late {b : Bridge I A} {s : Stream I A} {b' : Bridge I A} (hc : CloseSend b s b')
    (h : b.Late) : b'.Late := by
  cases hc with
  | failed => exact late_of_failed (failWithRetire_failed _ _)
  | open_ => exact h
  | closed => exact observeSendFin_late h

theorem pumpOut_late {b : Bridge I A} (now : Nat) (h : b.Late) : (b.pumpOut T now).Late := by
  have := pumpOut_cases (T := T) b now
  generalize b.pumpOut T now = b' at this
  cases this with
  | idle => exact h
  | expired => exact late_of_failed (fail_failed _ _)
  | failed => exact late_of_failed (failWithRetire_failed _ _)
  | late => exact late_of_failed (failWithRetire_failed _ _)
  | quiet _ _ _ _ _ _ _ _ hc => exact closeSend_late hc h
  | broken => exact late_of_failed (failWithRetire_failed _ _)
  | sent _ _ _ _ _ _ _ _ _ _ _ hc => exact closeSend_late hc h

theorem observeSendFin_terminal {b : Bridge I A} (h : b.isTerminal = true) :
    b.observeSendFin.isTerminal = true := by
  unfold isTerminal at h
  unfold observeSendFin
  split
  · simp_all
  · rfl
  · exact h

theorem closeSend_terminal {b : Bridge I A} {s : Stream I A} {b' : Bridge I A} (hc : CloseSend b s b')
    (h : b.isTerminal = true) : b'.isTerminal = true := by
  cases hc with
  | failed => exact terminal_of_failed (failWithRetire_failed _ _)
  | open_ => exact h
  | closed => exact observeSendFin_terminal h

theorem PumpOut.terminal {b b' : Bridge I A} {now : Nat} (hp : PumpOut T b now b') (h : b.isTerminal = true) :
    b'.isTerminal = true := by
  cases hp with
  | idle => exact h
  | expired => exact terminal_of_failed (fail_failed _ _)
  | failed => exact terminal_of_failed (failWithRetire_failed _ _)
  | late => exact terminal_of_failed (failWithRetire_failed _ _)
  | quiet _ _ _ _ _ _ _ _ hc => exact closeSend_terminal hc h
  | broken => exact terminal_of_failed (failWithRetire_failed _ _)
  | sent _ _ _ _ _ _ _ _ _ _ _ hc => exact closeSend_terminal hc h

theorem pumpOut_terminal {b : Bridge I A} (now : Nat) (h : b.isTerminal = true) :
    (b.pumpOut T now).isTerminal = true := (pumpOut_cases b now).terminal h

section
variable [DecidableEq I] [DecidableEq A]

/-- The outcomes of `commitOne`. -/
inductive CommitOne (cfg : Cfg I A) (env : Env I A) (T : TEnv) (cmp : CmpOptions) (now : Nat) (e : Ep I A)
    (b : Bridge I A) (s : Stream I A) (ev : PayloadEvent I A) (rest : List (PayloadEvent I A)) :
    Ep I A × Bridge I A → Prop
  | quiet (e' : Ep I A) : e.handleStreamEvent cfg env (.payload ev) now = (e', none) →
      CommitOne cfg env T cmp now e b s ev rest (e', { b with stream := some { s with endpointEvents := rest } })
  | respond (e' : Ep I A) (p : PushPull I A) (b' : Bridge I A) :
      e.handleStreamEvent cfg env (.payload ev) now = (e', some (.sendResponse p)) →
      PumpOut T ({ b with
        stream := some (({ s with endpointEvents := rest } : Stream I A).loadResponse
          (compressPayload T.B cmp (Ep.encodeBytes env (.pushPull p))) (now + cfg.streamTimeout))
        precompressed := true
        deadline := now + cfg.streamTimeout }) now b' →
      CommitOne cfg env T cmp now e b s ev rest (e', b')
  | close (e' : Ep I A) : e.handleStreamEvent cfg env (.payload ev) now = (e', some .close) →
      CommitOne cfg env T cmp now e b s ev rest
        (e', ({ b with stream := some { s with endpointEvents := rest } }).failWithRetire .admissionClosed)

theorem commitOne_cases (cmp : CmpOptions) (now : Nat) (e : Ep I A) (b : Bridge I A) (s : Stream I A)
    (ev : PayloadEvent I A) (rest : List (PayloadEvent I A)) :
    CommitOne cfg env T cmp now e b s ev rest (commitOne cfg env T cmp now e b s ev rest) := by
  simp only [commitOne]
  cases h : e.handleStreamEvent cfg env (.payload ev) now with
  | mk e' r =>
    cases r with
    | none => exact .quiet e' h
    | some r =>
      cases r with
      | sendResponse p => exact .respond e' p _ h (pumpOut_cases _ _)
      | close => exact .close e' h

theorem commitOne_ep (cmp : CmpOptions) (now : Nat) (e : Ep I A) (b : Bridge I A) (s : Stream I A)
    (ev : PayloadEvent I A) (rest : List (PayloadEvent I A)) :
    (commitOne cfg env T cmp now e b s ev rest).1 = (e.step cfg env (.streamEvent (.payload ev) now)).1 := by
  simp only [commitOne, Ep.step]
  split <;> simp_all

theorem commitOne_late {b : Bridge I A} (cmp : CmpOptions) (now : Nat) (e : Ep I A) (s : Stream I A)
    (ev : PayloadEvent I A) (rest : List (PayloadEvent I A)) (h : b.Late) :
    (commitOne cfg env T cmp now e b s ev rest).2.Late := by
  simp only [commitOne]
  split
  · exact h
  · exact pumpOut_late now h
  · exact late_of_failed (failWithRetire_failed _ _)

theorem commitOne_terminal {b : Bridge I A} (cmp : CmpOptions) (now : Nat) (e : Ep I A) (s : Stream I A)
    (ev : PayloadEvent I A) (rest : List (PayloadEvent I A)) (h : b.isTerminal = true) :
    (commitOne cfg env T cmp now e b s ev rest).2.isTerminal = true := by
  simp only [commitOne]
  split
  · exact h
  · exact pumpOut_terminal now h
  · exact terminal_of_failed (failWithRetire_failed _ _)

theorem drainEvents_log (cmp : CmpOptions) (now : Nat) (fuel : Nat) :
    ∀ (e : Ep I A) (b : Bridge I A) (log : List (Ep.Op I A)),
      drainEvents cfg env T cmp now fuel e b log =
        ((drainEvents cfg env T cmp now fuel e b []).1, (drainEvents cfg env T cmp now fuel e b []).2.1,
          log ++ (drainEvents cfg env T cmp now fuel e b []).2.2) := by
  induction fuel with
  | zero => intro e b log; simp [drainEvents]
  | succ fuel ih =>
    intro e b log
    simp only [drainEvents]
    split
    · simp
    · split
      · simp
      · rw [ih _ _ (log ++ _), ih _ _ ([] ++ _)]
        simp

theorem drainEvents_late (cmp : CmpOptions) (now : Nat) (fuel : Nat) :
    ∀ (e : Ep I A) (b : Bridge I A) (log : List (Ep.Op I A)), b.Late →
      (drainEvents cfg env T cmp now fuel e b log).2.1.Late := by
  induction fuel with
  | zero => intro e b log h; exact h
  | succ fuel ih =>
    intro e b log h
    simp only [drainEvents]
    split
    · exact h
    · split
      · exact h
      · exact ih _ _ _ (commitOne_late _ _ _ _ _ _ h)

theorem drainEvents_terminal (cmp : CmpOptions) (now : Nat) (fuel : Nat) :
    ∀ (e : Ep I A) (b : Bridge I A) (log : List (Ep.Op I A)), b.isTerminal = true →
      (drainEvents cfg env T cmp now fuel e b log).2.1.isTerminal = true := by
  induction fuel with
  | zero => intro e b log h; exact h
  | succ fuel ih =>
    intro e b log h
    simp only [drainEvents]
    split
    · exact h
    · split
      · exact h
      · exact ih _ _ _ (commitOne_terminal _ _ _ _ _ _ h)
end
end Verif.Bridge
