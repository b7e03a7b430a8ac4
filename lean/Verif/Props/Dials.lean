import Verif.Proof.Dials
import Verif.Props.PushPull
import Verif.Example.Endpoint
/-
C51: stream ids and dial intents.
-/
namespace Verif.Props
open Verif Spec Ep Core
variable {I A : Type} [DecidableEq I] [DecidableEq A]
variable {cfg : Cfg I A} {env : Env I A}

/-! ### Requests -/

/-- A push/pull requested on a running node waits under the returned, unused id: for that peer, until the stream timeout,
with the node's current state as its first message. The caller is asked to dial the peer. -/
theorem C51_pushPull {e : Ep I A} (h : Reachable cfg env e) (hr : e.core.lifecycle = .running) (peer : A)
    (kind : PushPullKind) (now : Nat) :
    ∃ id pp i, waiting e id = none ∧ Describes pp e ∧ (pp.join = true ↔ kind = .join) ∧
      i.peer = peer ∧ i.kind = .pushPull kind ∧ i.deadline = now + cfg.streamTimeout ∧
      (∀ b, encodeTyped env.CI env.CA (.pushPull pp) = .ok b → i.encoded = b) ∧
      (let r := e.step cfg env (.startPushPull peer kind now)
       r.2 = .streamId id ∧ waiting r.1 id = some i ∧ (∀ x, x ≠ id → waiting r.1 x = waiting e x) ∧
       r.1.core.events = e.core.events ++ [.dialRequested id peer (now + cfg.streamTimeout)]) ∧
      (let r := e.step cfg env (.startPushPullDirect peer kind now)
       r.2 = .dial id (some { stream := id, peer, deadline := now + cfg.streamTimeout }) ∧ waiting r.1 id = some i ∧
       (∀ x, x ≠ id → waiting r.1 x = waiting e x) ∧ r.1.core.events = e.core.events) := by
  have hn := reachable_netOk h
  refine ⟨e.net.nextStreamId, { join := kind == .join, states := tableStates e.core.members, userData := e.localState },
    { peer, kind := .pushPull kind, deadline := now + cfg.streamTimeout
      encoded := encodeBytes env (.pushPull { join := kind == .join, states := tableStates e.core.members, userData := e.localState }) },
    ?_, ?_, ?_, rfl, rfl, rfl, ?_, ?_, ?_⟩
  · cases hw : waiting e e.net.nextStreamId with
    | none => rfl
    | some i => exact absurd (hn.ids _ _ hw).2 (Nat.lt_irrefl _)
  · exact describes_of_perm (reachable_good h).inv.nodup (.refl _) rfl
  · dsimp only; cases kind <;> decide
  · intro b hb; unfold encodeBytes; rw [hb]
  · simp only [step]
    unfold startPushPull startPushPullDirect
    rw [if_neg (by simp [isRunning, hr])]
    refine ⟨rfl, ?_, ?_, rfl⟩
    · unfold waiting requestDial pushEvent insertIntent
      dsimp only
      rw [Map.get?_insert, if_pos rfl]
    · intro x hx
      unfold waiting requestDial pushEvent insertIntent
      dsimp only
      rw [Map.get?_insert, if_neg (Ne.symm hx)]
  · simp only [step]
    unfold startPushPullDirect
    rw [if_neg (by simp [isRunning, hr])]
    refine ⟨rfl, ?_, ?_, rfl⟩
    · unfold waiting insertIntent
      dsimp only
      rw [Map.get?_insert, if_pos rfl]
    · intro x hx
      unfold waiting insertIntent
      dsimp only
      rw [Map.get?_insert, if_neg (Ne.symm hx)]

/-- Likewise a reliable ping, whose first message is a ping from the local node with the given sequence number. -/
theorem C51_reliablePing {e : Ep I A} (h : Reachable cfg env e) (hr : e.core.lifecycle = .running) (pid : I) (peer : A)
    (seq d : Nat) :
    ∃ id i, waiting e id = none ∧
      i.peer = peer ∧ i.kind = .reliablePing seq ∧ i.deadline = d ∧
      (∀ b, encodeTyped env.CI env.CA (.ping { seq, source := { id := cfg.localId, addr := cfg.advertise }
                                               target := { id := pid, addr := peer } }) = .ok b → i.encoded = b) ∧
      (let r := e.step cfg env (.startReliablePing pid peer seq d)
       r.2 = .streamId id ∧ waiting r.1 id = some i ∧ (∀ x, x ≠ id → waiting r.1 x = waiting e x) ∧
       r.1.core.events = e.core.events ++ [.dialRequested id peer d]) ∧
      (let r := e.step cfg env (.startReliablePingDirect pid peer seq d)
       r.2 = .dial id (some { stream := id, peer, deadline := d }) ∧ waiting r.1 id = some i ∧
       (∀ x, x ≠ id → waiting r.1 x = waiting e x) ∧ r.1.core.events = e.core.events) := by
  have hn := reachable_netOk h
  refine ⟨e.net.nextStreamId,
    { peer, kind := .reliablePing seq, deadline := d
      encoded := encodeBytes env (.ping { seq, source := localNode cfg, target := { id := pid, addr := peer } }) },
    ?_, rfl, rfl, rfl, ?_, ?_, ?_⟩
  · cases hw : waiting e e.net.nextStreamId with
    | none => rfl
    | some i => exact absurd (hn.ids _ _ hw).2 (Nat.lt_irrefl _)
  · intro b hb; unfold encodeBytes localNode; rw [hb]
  · simp only [step]
    unfold startReliablePing startReliablePingDirect
    rw [if_neg (by simp [isRunning, hr])]
    refine ⟨rfl, ?_, ?_, rfl⟩
    · unfold waiting requestDial pushEvent insertIntent
      dsimp only
      rw [Map.get?_insert, if_pos rfl]
    · intro x hx
      unfold waiting requestDial pushEvent insertIntent
      dsimp only
      rw [Map.get?_insert, if_neg (Ne.symm hx)]
  · simp only [step]
    unfold startReliablePingDirect
    rw [if_neg (by simp [isRunning, hr])]
    refine ⟨rfl, ?_, ?_, rfl⟩
    · unfold waiting insertIntent
      dsimp only
      rw [Map.get?_insert, if_pos rfl]
    · intro x hx
      unfold waiting insertIntent
      dsimp only
      rw [Map.get?_insert, if_neg (Ne.symm hx)]

/-- Likewise a message of the application. -/
theorem C51_userMessage {e : Ep I A} (h : Reachable cfg env e) (hr : e.core.lifecycle = .running) (peer : A)
    (payload : Bytes) (now : Nat) :
    ∃ id i, waiting e id = none ∧
      i.peer = peer ∧ i.kind = .userMessage ∧ i.deadline = now + cfg.streamTimeout ∧
      (∀ b, encodeTyped env.CI env.CA (.userData payload : Message I A) = .ok b → i.encoded = b) ∧
      (let r := e.step cfg env (.startUserMessage peer payload now)
       r.2 = .streamIdResult (.ok id) ∧ waiting r.1 id = some i ∧ (∀ x, x ≠ id → waiting r.1 x = waiting e x) ∧
       r.1.core.events = e.core.events ++ [.dialRequested id peer (now + cfg.streamTimeout)]) ∧
      (let r := e.step cfg env (.startUserMessageDirect peer payload now)
       r.2 = .dialResult (.ok (id, ⟨id, peer, now + cfg.streamTimeout⟩)) ∧ waiting r.1 id = some i ∧
       (∀ x, x ≠ id → waiting r.1 x = waiting e x) ∧ r.1.core.events = e.core.events) := by
  have hn := reachable_netOk h
  refine ⟨e.net.nextStreamId,
    { peer, kind := .userMessage, deadline := now + cfg.streamTimeout, encoded := encodeBytes env (.userData payload) },
    ?_, rfl, rfl, rfl, ?_, ?_, ?_⟩
  · cases hw : waiting e e.net.nextStreamId with
    | none => rfl
    | some i => exact absurd (hn.ids _ _ hw).2 (Nat.lt_irrefl _)
  · intro b hb; unfold encodeBytes; rw [hb]
  · simp only [step]
    unfold startUserMessage startUserMessageDirect
    rw [if_neg (by simp [isRunning, hr])]
    refine ⟨rfl, ?_, ?_, rfl⟩
    · unfold waiting requestDial pushEvent insertIntent
      dsimp only
      rw [Map.get?_insert, if_pos rfl]
    · intro x hx
      unfold waiting requestDial pushEvent insertIntent
      dsimp only
      rw [Map.get?_insert, if_neg (Ne.symm hx)]
  · simp only [step]
    unfold startUserMessageDirect
    rw [if_neg (by simp [isRunning, hr])]
    refine ⟨rfl, ?_, ?_, rfl⟩
    · unfold waiting insertIntent
      dsimp only
      rw [Map.get?_insert, if_pos rfl]
    · intro x hx
      unfold waiting insertIntent
      dsimp only
      rw [Map.get?_insert, if_neg (Ne.symm hx)]

/-- No two calls that open or accept a stream return the same id. -/
theorem C51_issued_once {e : Ep I A} (h : Reachable cfg env e) (ops : List (Op I A)) :
    (issuedIds cfg env e ops).Nodup :=
  (issued_spec ops e h).1

/-! ### Their life -/

/-- A request never changes. It waits until its dial is reported as made or failed, the node leaves, or a call notices
that its deadline passed. -/
theorem C51_kept {e : Ep I A} (h : Reachable cfg env e) (op : Op I A) {id : Nat} {i : Intent A}
    (hi : waiting e id = some i) :
    let e' := (e.step cfg env op).1
    waiting e' id = some i ∨ (waiting e' id = none ∧
      ((∃ now, op = .dialSucceeded id now) ∨ op = .dialFailed id ∨ (∃ now f, op = .leave now f) ∨
        ∃ now, op.probeTime = some now ∧ i.deadline ≤ now)) :=
  step_waiting h op hi

/-- Each of these ends it. -/
theorem C51_ended {e : Ep I A} (h : Reachable cfg env e) (id : Nat) :
    (∀ now, waiting (e.step cfg env (.dialSucceeded id now)).1 id = none) ∧
    waiting (e.step cfg env (.dialFailed id)).1 id = none ∧
    (e.core.lifecycle = .running → ∀ now f, waiting (e.step cfg env (.leave now f)).1 id = none) ∧
    (e.core.lifecycle = .running → ∀ now i, waiting (e.step cfg env (.timeout now)).1 id = some i →
      waiting e id = some i → now < i.deadline) := by
  refine ⟨fun now => dialSucceeded_waiting _ _ _, ?_, fun hr now f => ?_, fun hr now i hw hi => timeout_waiting h hr hi hw⟩
  · simp only [step]
    unfold dialFailed waiting
    dsimp only
    rw [dropIntent_intents, if_pos rfl]
  · obtain ⟨ts, h1⟩ := leaveWith_net (cfg := cfg) (env := env) e now f hr
    simp only [step]
    unfold waiting
    rw [h1]; rfl

/-- An id that once waited and waits no more never waits again. -/
theorem C51_gone {e : Ep I A} (h : Reachable cfg env e) {id : Nat} {i : Intent A} (hi : waiting e id = some i)
    (ops : List (Op I A)) (hg : waiting (Ep.run cfg env e ops) id = none) (more : List (Op I A)) :
    waiting (Ep.run cfg env e (ops ++ more)) id = none := by
  have hlt := ((reachable_netOk h).ids _ _ hi).2
  have h1 := run_ids h ops
  have h2 := run_ids (reachable_run h ops) more
  rw [run_append]
  cases hw : waiting (Ep.run cfg env (Ep.run cfg env e ops) more) id with
  | none => rfl
  | some j =>
    have := h2.old id j (Nat.lt_of_lt_of_le hlt h1.mono) hw
    unfold waiting at hg
    rw [hg] at this; cases this

/-- A new request is under an id that no stream was handed out for, that no call returned, and that never waited. -/
theorem C51_new {t0 : Nat} {e0 : Ep I A} (h0 : tryNew cfg env t0 = .ok e0) (ops : List (Op I A)) (op : Op I A) {id : Nat}
    {i : Intent A} (hn : waiting (Ep.run cfg env e0 ops) id = none)
    (hi : waiting (Ep.run cfg env e0 (ops ++ [op])) id = some i) :
    id ∉ streamIds cfg env e0 ops ∧ id ∉ issuedIds cfg env e0 ops ∧
      ∀ pre suf, ops = pre ++ suf → waiting (Ep.run cfg env e0 pre) id = none := by
  have h := reachable_new h0
  have hge : (Ep.run cfg env e0 ops).net.nextStreamId ≤ id := by
    by_contra hlt
    rw [run_snoc] at hi
    have := (step_ids (reachable_run h ops) op).old id i (Nat.lt_of_not_le hlt) hi
    unfold waiting at hn
    rw [hn] at this; cases this
  refine ⟨fun hm => ?_, fun hm => ?_, fun pre suf he => ?_⟩
  · have := ((streamOk_run h0 ops).old id hm).1; omega
  · have := ((issued_spec ops e0 h).2 id hm).2; omega
  · subst he
    cases hw : waiting (Ep.run cfg env e0 pre) id with
    | none => rfl
    | some j =>
      have h1 := ((reachable_netOk (reachable_run h pre)).ids _ _ hw).2
      have h2 := (run_ids (reachable_run h pre) suf).mono
      rw [← run_append] at h2
      omega

/-! ### Streams -/

/-- A dial reported as made gives a stream exactly when the node is running and a request waits under the id whose
deadline has not come. The stream is for that id, peer, purpose and deadline, and has the request's bytes to send. -/
theorem C51_honoured (e : Ep I A) (id now : Nat) :
    (∀ i, e.core.lifecycle = .running → waiting e id = some i → now < i.deadline →
      ∃ s, (e.step cfg env (.dialSucceeded id now)).2 = .stream (some s) ∧ s.id = id ∧ s.peer = i.peer ∧
        s.deadline = some i.deadline ∧ s.phase = .outSending i.kind ∧ s.outputBuf.flatten = i.encoded ∧
        s.inputBuf = []) ∧
    ((e.core.lifecycle = .running → ∀ i, waiting e id = some i → i.deadline ≤ now) →
      (e.step cfg env (.dialSucceeded id now)).2 = .stream none) := by
  unfold waiting
  simp only [step]
  unfold dialSucceeded
  refine ⟨fun i hr hi hd => ?_, fun hno => ?_⟩
  · rw [hi]
    dsimp only
    rw [if_neg (by omega), if_neg (by simp [hr])]
    refine ⟨_, rfl, rfl, rfl, rfl, rfl, ?_, rfl⟩
    unfold Stream.fresh
    dsimp only
    split
    · rename_i hb; rw [hb]; rfl
    · simp
  · cases hi : e.net.intents.get? id with
    | none => rfl
    | some i =>
      dsimp only
      split
      · rfl
      · rename_i hnd
        split
        · rfl
        · rename_i hl
          simp only [ne_eq, Decidable.not_not] at hl
          exact absurd (hno hl i hi) hnd

/-- Accepting a connection gives a stream exactly while the node runs, for the given peer, waiting for its first message
until the stream timeout. -/
theorem C51_accept (e : Ep I A) (src : A) (now : Nat) :
    (e.core.lifecycle = .running → ∃ s, (e.step cfg env (.acceptStream src now)).2 = .stream (some s) ∧
      s.peer = src ∧ s.deadline = some (now + cfg.streamTimeout) ∧ s.phase = .inAwaiting ∧ s.outputBuf = [] ∧
      s.inputBuf = []) ∧
    (e.core.lifecycle ≠ .running → e.step cfg env (.acceptStream src now) = (e, .stream none)) := by
  simp only [step]
  unfold acceptStream
  refine ⟨fun hr => ?_, fun hr => ?_⟩
  · rw [if_neg (by simp [isRunning, hr])]
    exact ⟨_, rfl, rfl, rfl, rfl, rfl, rfl⟩
  · rw [if_pos (by simp [isRunning, hr])]

/-- No two streams of a node have the same id. -/
theorem C51_streams {t0 : Nat} {e0 : Ep I A} (h0 : tryNew cfg env t0 = .ok e0) (ops : List (Op I A)) :
    (streamIds cfg env e0 ops).Nodup := (streamOk_run h0 ops).nodup

/-- Dial requests the caller did not queue itself are handed out at most once per id. One that still waits has the peer
and deadline the request has. -/
theorem C51_dials {t0 : Nat} {e0 : Ep I A} (h0 : tryNew cfg env t0 = .ok e0) (ops : List (Op I A))
    (hq : ∀ id peer d, Op.requeueDial id peer d ∉ ops) :
    ((requestedDials cfg env e0 ops).map Prod.fst).Nodup ∧
      ∀ op id peer d i, (id, peer, d) ∈ dialsIn ((Ep.run cfg env e0 ops).step cfg env op).2 →
        waiting ((Ep.run cfg env e0 ops).step cfg env op).1 id = some i → i.peer = peer ∧ i.deadline = d := by
  have hd := dialOk_run h0 ops hq
  refine ⟨hd.nodup.sublist (List.sublist_append_left _ _), fun op id peer d i hm hw => ?_⟩
  have hr := reachable_run (reachable_new h0) ops
  generalize Ep.run cfg env e0 ops = e at *
  have hi := step_ids hr op
  have queued : (id, peer, d) ∈ dialQ e → i.peer = peer ∧ i.deadline = d := fun hx =>
    hd.agree _ hx i (hi.old _ _ (hd.lt _ (List.mem_append_right _ (List.mem_map_of_mem hx))) hw)
  cases op with
  | pollEvent =>
    refine queued ?_
    revert hm
    simp only [step]
    unfold pollEvent dialQ
    cases e.core.events with
    | nil => intro hm; cases hm
    | cons ev evs =>
      intro hm
      cases ev with
      | dialRequested a b c => exact List.mem_cons.2 (.inl (List.mem_singleton.1 hm))
      | _ => cases hm
  | sieveDials =>
    refine queued ?_
    simp only [step, sieveDials, dialsIn] at hm
    rw [dialOf_filter] at hm
    exact hm
  | startPushPullDirect pr kind now =>
    revert hm hw
    simp only [step]
    unfold startPushPullDirect
    dsimp only
    split
    · intro hm; cases hm
    · intro hm hw
      simp only [dialsIn, List.mem_singleton] at hm
      cases hm
      unfold waiting insertIntent at hw
      dsimp only at hw
      rw [Map.get?_insert, if_pos rfl] at hw
      cases hw; exact ⟨rfl, rfl⟩
  | startReliablePingDirect pid pr seq dl =>
    revert hm hw
    simp only [step]
    unfold startReliablePingDirect
    dsimp only
    split
    · intro hm; cases hm
    · intro hm hw
      simp only [dialsIn, List.mem_singleton] at hm
      cases hm
      unfold waiting insertIntent at hw
      dsimp only at hw
      rw [Map.get?_insert, if_pos rfl] at hw
      cases hw; exact ⟨rfl, rfl⟩
  | startUserMessageDirect pr pl now =>
    revert hm hw
    simp only [step]
    unfold startUserMessageDirect
    dsimp only
    split
    · intro hm; cases hm
    · intro hm hw
      simp only [dialsIn, List.mem_singleton] at hm
      cases hm
      unfold waiting insertIntent at hw
      dsimp only at hw
      rw [Map.get?_insert, if_pos rfl] at hw
      cases hw; exact ⟨rfl, rfl⟩
  | _ => cases hm

/-- A push/pull, an accepted connection, an application message and a reliable ping; the first connects, the third
does not. -/
def hDials : List (Op Nat Nat) :=
  Ex.h1 ++ [.startPushPull 101 .join 40, .acceptStream 105 50, .startUserMessageDirect 102 [1] 60,
    .startReliablePing 2 102 9 (900 * MS), .sieveDials, .dialSucceeded 1 70, .dialFailed 3]

example : (Ex.after (hDials.take 7)).core.lifecycle = .running ∧
    issuedIds Ex.cfg Ex.env Ex.e0 hDials = [1, 2, 3, 4] ∧ streamIds Ex.cfg Ex.env Ex.e0 hDials = [2, 1] ∧
    requestedDials Ex.cfg Ex.env Ex.e0 hDials =
      [(3, 102, 10000 * MS + 60), (1, 101, 10000 * MS + 40), (4, 102, 900 * MS)] ∧
    ((List.range 6).map fun id => (waiting (Ex.after (hDials.take 7)) id).map fun i => (i.peer, i.kind, i.deadline)) =
      [none, some (101, .pushPull .join, 10000 * MS + 40), none, some (102, .userMessage, 10000 * MS + 60),
        some (102, .reliablePing 9, 900 * MS), none] ∧
    ((List.range 6).map fun id => (waiting (Ex.after hDials) id).map fun i => (i.peer, i.encoded)) =
      [none, none, none, none,
        some (102, [2, 18, 8, 9, 18, 6, 10, 1, 0, 18, 1, 100, 26, 6, 10, 1, 2, 18, 1, 102]), none] ∧
    waiting (Ex.after (hDials ++ [.timeout (900 * MS)])) 4 = none ∧
    waiting (Ex.after (hDials ++ [.timeout (899 * MS)])) 4 ≠ none := by
  decide +kernel

end Verif.Props
