import Verif.Proof.Embassy

/-!
C112 to C116: what the reliable plane of the embassy driver does with one socket of its pool. Every theorem
is about any history of that socket: any calls of the engine, any progress of the driver's task, any results
of the socket, in any order.
-/

namespace Verif.Props

open Verif.Embassy

variable {A : Type} {i o : Nat} {t : List (Obs A)} {s : Slot A}

/-! ### C112: what is received -/

/-- C112: what the engine has been given of a connection is, in order, the first bytes the socket received on
that same connection. -/
theorem C112_order (h : Reaches i o t s) : handed (latest t) <+: received (latest t) :=
  h.inv.holds.inOrder

/-- C112: as long as the socket has not been reset, a `recv` that finds nothing means that the engine has been
given every byte received. -/
theorem C112_complete (h : Reaches i o t s) (hr : s.reuseReady = false) (n : Nat) (hn : (s.recv n).2 = none) :
    handed (latest t) = received (latest t) := by
  have := h.inv.holds.inLive hr
  simp only [Slot.recv] at hn
  split at hn
  · next he =>
    rw [List.isEmpty_iff.mp he, List.append_nil] at this
    exact this
  · cases hn

/-- C112: the end of the stream is reported only when the peer has finished it on this connection, and after
every byte of it. -/
theorem C112_end (h : Reaches i o t s) (hf : s.recvFinished = true) :
    Obs.fin ∈ latest t ∧ handed (latest t) = received (latest t) := by
  simp only [Slot.recvFinished, Bool.and_eq_true] at hf
  have hr : s.mail.resetDone = false := by
    cases hr : s.mail.resetDone with
    | false => rfl
    | true =>
      have q := h.inv.stands.calm (by rcases h.inv.stands.ready hr with h | h <;> simp [h, Pc.calm])
      simp [q.fin] at hf
  have := h.inv.holds.inLive hr
  rw [List.isEmpty_iff.mp hf.2, List.append_nil] at this
  exact ⟨h.inv.holds.fin hf.1, this⟩

/-- C112: once the end of a stream has been reported, no byte of that connection is given to the engine. -/
theorem C112_last (h : Reaches i o t s) (hf : s.recvFinished = true) {es : List (Ev A)} {s' : Slot A}
    {u : List (Obs A)} (hr : s.runs es = some (s', u)) (hb : ∀ x ∈ u, x.begins = false) : handed u = [] := by
  obtain ⟨hfin, heq⟩ := C112_end h hf
  have inv := Inv.runs hr h.inv
  have hq := inv.ends.quiet
  have hp := inv.holds.inOrder
  rw [latest_append _ _ hb] at hq hp
  have hne : ((latest t).dropWhile fun o => !o.isFin) ≠ [] := by
    intro h0
    have : ∀ c : List (Obs A), Obs.fin ∈ c → c.dropWhile (fun o => !o.isFin) ≠ [] := by
      intro c
      induction c with
      | nil => simp
      | cons x c ih =>
        intro hm
        by_cases hx : x.isFin
        · rw [List.dropWhile_cons_of_neg (by simp [hx])]; simp
        · rw [List.dropWhile_cons_of_pos (by simp [hx])]
          refine ih ?_
          rcases List.mem_cons.mp hm with rfl | hm
          · simp [Obs.isFin] at hx
          · exact hm
    exact this _ hfin h0
  unfold quietEnd at hq
  rw [List.dropWhile_append, if_neg (by simpa using hne)] at hq
  simp only [received_append, List.append_eq_nil_iff] at hq
  rw [handed_append, received_append, hq.2, List.append_nil, heq] at hp
  have := hp.length_le
  simp only [List.length_append] at this
  exact List.eq_nil_of_length_eq_zero (by omega)

/-- An accepted connection brings five bytes and ends; the engine takes them, answers, and closes. -/
def embassyServed : List (Ev Nat) :=
  [.engine (.listen 7), .worker (.run 0), .worker (.up (some 9) 0), .worker (.run 0),
   .worker (.data [1, 2, 3] 0), .engine (.recv 2), .worker (.run 0), .worker (.data [4, 5] 0),
   .worker (.run 0), .worker (.eof 0), .engine (.recv 8), .engine (.send [6, 7]), .worker (.run 0),
   .worker (.wrote 1 1), .engine (.send [8]), .worker (.flushed 0), .worker (.run 0), .worker (.wrote 2 2),
   .worker (.flushed 0), .engine .close, .worker (.run 0), .worker (.flushed 0), .worker (.flushed 0)]

example : ((Slot.new Nat 16 16).runs embassyServed).map (fun r =>
      (r.1.reuseReady, handed r.2, received r.2, transmitted r.2, accepted r.2)) =
    some (true, [1, 2, 3, 4, 5], [1, 2, 3, 4, 5], [6, 7, 8], [6, 7, 8]) := by decide

/-- The same connection when its end has just been reported. -/
example : ((Slot.new Nat 16 16).runs (embassyServed.take 11)).map (fun r =>
      (r.1.recvFinished, r.1.reuseReady, (r.1.recv 4).2, handed (latest r.2))) =
    some (true, false, none, [1, 2, 3, 4, 5]) := by decide

/-- C112, what does not hold: bytes that the socket has received and that the engine has not yet taken are
lost when the peer resets the connection. The driver clears them as it resets the socket, although its
comment says that they still drain. -/
theorem C112_lost : ∃ (t : List (Obs Nat)) (s : Slot Nat), Reaches 16 16 t s ∧ s.reuseReady = true ∧
    received (latest t) = [1, 2, 3] ∧ handed (latest t) = [] := by
  refine ⟨_, _, ⟨[.engine (.listen 7), .worker (.run 0), .worker (.up (some 9) 0), .worker (.run 0),
    .worker (.data [1, 2, 3] 0), .worker (.run 0), .worker .err, .worker (.flushed 0)], rfl⟩, ?_, ?_, ?_⟩ <;>
    decide

/-! ### C113: what is sent -/

/-- C113: what the socket is given to transmit on a connection is, in order, the first bytes the engine's
`send` has accepted on that same connection. -/
theorem C113_order (h : Reaches i o t s) : transmitted (latest t) <+: accepted (latest t) :=
  h.inv.holds.outOrder

/-- C113: a send queue of zero on a connection that has not been reset means that the socket has been given
every byte the engine's `send` has accepted. -/
theorem C113_sent (h : Reaches i o t s) (hr : s.reuseReady = false) (hq : s.sendQueue = 0) :
    transmitted (latest t) = accepted (latest t) := by
  have := h.inv.holds.outLive hr
  simp only [Slot.sendQueue] at hq
  have h0 : s.mail.outbound = [] := List.eq_nil_of_length_eq_zero (by omega)
  rw [h0, List.append_nil] at this
  exact this

/-- The engine has answered in two parts, and everything has gone out. -/
example : ((Slot.new Nat 16 16).runs (embassyServed.take 19)).map (fun r =>
      (r.1.reuseReady, r.1.sendQueue, transmitted (latest r.2))) = some (false, 0, [6, 7, 8]) := by decide

/-- Before that, one byte is with the socket and two wait for it. -/
example : ((Slot.new Nat 16 16).runs (embassyServed.take 15)).map (fun r =>
      (r.1.sendQueue, transmitted (latest r.2), accepted (latest r.2))) = some (3, [6], [6, 7, 8]) := by decide

/-! ### C114: what the engine asks for is done -/

/-- C114: the driver's task never sleeps through a request. Where it waits for its wake although the engine
has given it a command, or bytes to send, or has made room for more received bytes, the wake is set. -/
theorem C114_woken (h : Reaches i o t s) (hw : s.wanted) : s.wake = true := h.inv.awake hw

/-- C114: a connection that the engine asks for on a socket ready for reuse is opened, and with the peer it
named. Until the engine gives another command, either the socket's first call is that one, or nothing has
been called and the driver's task makes that call as soon as it is run. -/
theorem C114_dialled (h : Reaches i o t s) (hr : s.reuseReady = true) (r : A) {es : List (Ev A)}
    (he : ∀ e ∈ es, e.silent = true) {s' : Slot A} {u : List (Obs A)}
    (hs : s.runs (.engine (.connect r) :: es) = some (s', u)) :
    (∃ u', u = .connect r :: u') ∨
    (u = [] ∧ ∃ ws s2, (∀ w ∈ ws, ∃ x, w = Ev.worker x) ∧ s'.runs ws = some (s2, [.connect r])) := by
  have hst := h.inv.stands
  have hpc := hst.ready hr
  have q := hst.calm (by rcases hpc with h | h <;> simp [h, Pc.calm])
  have hd : Due (s.post (.dial r)) (.dial r) := by
    refine ⟨⟨q.1, q.2, q.3, q.4, q.5, q.6, q.7⟩, rfl, ?_⟩
    rcases hpc with h | h
    · exact .inl h
    · exact .inr ⟨h, rfl⟩
  simp only [Slot.runs, Slot.step, Slot.allows, hr, if_true, Slot.call] at hs
  simp only [List.nil_append, Option.map_eq_some_iff] at hs
  obtain ⟨⟨s2, u2⟩, hs, heq⟩ := hs
  simp only [Prod.mk.injEq] at heq
  obtain ⟨rfl, rfl⟩ := heq
  rcases hd.runs (.inr ⟨r, rfl⟩) he hs with ⟨hd', rfl⟩ | ⟨u', rfl⟩
  · exact .inr ⟨rfl, hd'.done (.inr ⟨r, rfl⟩)⟩
  · exact .inl ⟨u', rfl⟩

/-- C114: likewise, a socket ready for reuse that the engine asks to listen listens, and on the port it
named. -/
theorem C114_listened (h : Reaches i o t s) (hr : s.reuseReady = true) (p : Nat) (hp : p ≠ 0)
    {es : List (Ev A)} (he : ∀ e ∈ es, e.silent = true) {s' : Slot A} {u : List (Obs A)}
    (hs : s.runs (.engine (.listen p) :: es) = some (s', u)) :
    (∃ u', u = .accept p :: u') ∨
    (u = [] ∧ ∃ ws s2, (∀ w ∈ ws, ∃ x, w = Ev.worker x) ∧ s'.runs ws = some (s2, [.accept p])) := by
  have hst := h.inv.stands
  have hpc := hst.ready hr
  have q := hst.calm (by rcases hpc with h | h <;> simp [h, Pc.calm])
  have hd : Due (s.post (.listen p)) (.listen p) := by
    refine ⟨⟨q.1, q.2, q.3, q.4, q.5, q.6, q.7⟩, rfl, ?_⟩
    rcases hpc with h | h
    · exact .inl h
    · exact .inr ⟨h, rfl⟩
  simp only [Slot.runs, Slot.step, Slot.allows, hr, if_true, Slot.call, if_neg hp] at hs
  simp only [List.nil_append, Option.map_eq_some_iff] at hs
  obtain ⟨⟨s2, u2⟩, hs, heq⟩ := hs
  simp only [Prod.mk.injEq] at heq
  obtain ⟨rfl, rfl⟩ := heq
  rcases hd.runs (.inl ⟨p, rfl⟩) he hs with ⟨hd', rfl⟩ | ⟨u', rfl⟩
  · exact .inr ⟨rfl, hd'.done (.inl ⟨p, rfl⟩)⟩
  · exact .inl ⟨u', rfl⟩

/-- A socket that has served one connection is dialled with. -/
example : ((Slot.new Nat 16 16).runs (embassyServed ++ [.worker (.run 0), .engine (.connect 5), .worker .woke,
      .engine (.recv 4), .worker (.run 0)])).map (fun r => r.2.drop 11) = some [.abort, .connect 5] := by decide

/-- A task that waits for the peer's bytes is woken by bytes to send. -/
example : ((Slot.new Nat 16 16).runs (embassyServed.take 7 ++ [.engine (.send [6])])).map (fun r =>
      (r.1.pc.waits, r.1.mail.outbound, r.1.wake)) = some (true, [6], true) := by decide

/-! ### C115: reuse and bounds -/

/-- C115: a socket that is ready for reuse shows nothing of its earlier connections: it is not open, has no
peer, reports no end, has nothing to read, takes nothing to send and has nothing queued. -/
theorem C115_clean (h : Reaches i o t s) (hr : s.reuseReady = true) :
    s.isOpen = false ∧ s.acceptedPeer = none ∧ s.recvFinished = false ∧ (∀ n, (s.recv n).2 = none) ∧
      s.maySend = false ∧ s.sendQueue = 0 := by
  have hst := h.inv.stands
  have q := hst.calm (by rcases hst.ready hr with h | h <;> simp [h, Pc.calm])
  refine ⟨q.isOpen, q.peer, ?_, ?_, ?_, ?_⟩
  · simp [Slot.recvFinished, q.fin]
  · intro n; simp [Slot.recv, q.inb]
  · simp [Slot.maySend, q.established]
  · simp [Slot.sendQueue, q.out, q.queue]

/-- The capacities never change. -/
theorem caps_runs {s s' : Slot A} {es : List (Ev A)} {u : List (Obs A)} (h : s.runs es = some (s', u)) :
    s'.mail.inCap = s.mail.inCap ∧ s'.mail.outCap = s.mail.outCap := by
  induction es generalizing s u with
  | nil =>
    simp only [Slot.runs, Option.some.injEq, Prod.mk.injEq] at h
    obtain ⟨rfl, -⟩ := h
    exact ⟨rfl, rfl⟩
  | cons e es ih =>
    simp only [Slot.runs] at h
    split at h
    · cases h
    · next s1 o1 h1 =>
      simp only [Option.map_eq_some_iff] at h
      obtain ⟨⟨s2, o2⟩, hr, heq⟩ := h
      simp only [Prod.mk.injEq] at heq
      obtain ⟨rfl, -⟩ := heq
      have := ih hr
      rw [this.1, this.2]
      clear ih this hr
      obtain ⟨m, wk, pc⟩ := s
      cases e with
      | engine c =>
        simp only [Slot.step] at h1
        split at h1
        · simp only [Option.some.injEq] at h1
          cases c <;> simp only [Slot.call, Slot.post, Slot.recv, Slot.send] at h1
          case recv n =>
            by_cases he : m.inbound.isEmpty <;> simp [he] at h1 <;> obtain ⟨rfl, -⟩ := h1 <;> exact ⟨rfl, rfl⟩
          case listen p =>
            split at h1 <;> simp only [Prod.mk.injEq] at h1 <;> obtain ⟨rfl, -⟩ := h1 <;> exact ⟨rfl, rfl⟩
          all_goals
            simp only [Prod.mk.injEq] at h1
            obtain ⟨rfl, -⟩ := h1
            exact ⟨rfl, rfl⟩
        · cases h1
      | worker w =>
        simp only [Slot.step] at h1
        cases pc <;> cases w <;> simp only [Slot.wakeup, reduceCtorEq] at h1
        case top.run =>
          simp only [Option.some.injEq, Slot.runTop] at h1
          split at h1 <;> simp only [Prod.mk.injEq] at h1 <;> obtain ⟨rfl, -⟩ := h1 <;> exact ⟨rfl, rfl⟩
        case est.run =>
          simp only [Option.some.injEq, Slot.runEst] at h1
          repeat' split at h1
          all_goals
            simp only [Prod.mk.injEq] at h1
            obtain ⟨rfl, -⟩ := h1
            first
              | exact ⟨rfl, rfl⟩
              | (rw [Slot.runIo_mail]; exact ⟨rfl, rfl⟩)
        case accepting.up | reading.data | writing.wrote | idle.woke | accepting.woke | dialing.woke |
            parked.woke | reading.woke =>
          split at h1
          all_goals simp only [Option.some.injEq, Prod.mk.injEq, reduceCtorEq] at h1
          all_goals
            obtain ⟨rfl, -⟩ := h1
            exact ⟨rfl, rfl⟩
        all_goals
          simp only [Option.some.injEq, Prod.mk.injEq] at h1
          obtain ⟨rfl, -⟩ := h1
          exact ⟨rfl, rfl⟩

/-- C115: a socket never has more bytes waiting, in either direction, than the capacities it was created
with. -/
theorem C115_bounded (h : Reaches i o t s) :
    s.mail.inbound.length ≤ i ∧ s.mail.outbound.length ≤ o := by
  have h1 := h.inv.stands.inCap
  have h2 := h.inv.stands.outCap
  obtain ⟨es, h⟩ := h
  have := caps_runs h
  rw [this.1] at h1
  rw [this.2] at h2
  exact ⟨h1, h2⟩

/-- The socket of the first connection is ready again. -/
example : ((Slot.new Nat 16 16).runs embassyServed).map (fun r => r.1.reuseReady) = some true := by decide

/-- A socket with room for four bytes is offered six. -/
example : ((Slot.new Nat 4 4).runs [.engine (.connect 5), .worker (.run 0), .worker (.up (some 5) 0),
      .engine (.send [1, 2, 3, 4, 5, 6])]).map (fun r => (r.1.mail.outbound, r.1.maySend)) =
    some ([1, 2, 3, 4], false) := by decide

/-! ### C116: an aborted socket comes back -/

/-- C116, in part: once the engine has aborted a connection, the driver's task makes the socket ready for
reuse within five of its steps, whatever the socket answers, unless among them is the completion of a
handshake. What is missing is that completion: see `C116_lost`. -/
theorem C116_returned_partial (s : Slot A) {ws : List (Wakeup A)}
    (hu : ∀ w ∈ ws, ∀ p q, w ≠ .up p q) (hl : 5 ≤ ws.length) {s' : Slot A} {u : List (Obs A)}
    (hr : s.runs (.engine .abort :: ws.map .worker) = some (s', u)) :
    ∃ k ≤ 5, ∃ s1 o1, s.runs (.engine .abort :: (ws.take k).map .worker) = some (s1, o1) ∧
      s1.reuseReady = true := by
  have hrk := (s.post .abort).pc.rank_le
  simp only [Slot.runs, Slot.step, Slot.allows, if_true, Slot.call, List.nil_append,
    Option.map_eq_some_iff] at hr
  obtain ⟨⟨s2, o2⟩, hr, -⟩ := hr
  obtain ⟨k, hk, s1, o1, h1, hd⟩ := Going.returns (s := s.post .abort) (.inl rfl) hu (by omega) hr
  refine ⟨k, by omega, s1, o1, ?_, hd⟩
  simp only [Slot.runs, Slot.step, Slot.allows, if_true, Slot.call, h1, Option.map_some, List.nil_append]

/-- An abort reaches a task that is about to write; a read would have brought more bytes. -/
example : ((Slot.new Nat 16 16).runs (embassyServed.take 13 ++ [.engine .abort])).map (fun r =>
      (r.1.mail.command, (r.1.runs ([.wrote 1 1, .flushed 0, .run 0, .flushed 0, .flushed 0].map
        Ev.worker)).map fun r => r.1.reuseReady)) = some (.abort, some true) := by decide

/-- A slot on which nothing can happen any more unless the engine gives it a command or bytes to send. -/
theorem stuck_runs {s s' : Slot A} {we : Bool} (hp : s.pc = .parked we true) (hw : s.wake = false)
    (hi : s.mail.inbound = []) {es : List (Ev A)} (he : ∀ e ∈ es, e.passive = true) {u : List (Obs A)}
    (hr : s.runs es = some (s', u)) : s' = s := by
  induction es generalizing u with
  | nil =>
    simp only [Slot.runs, Option.some.injEq, Prod.mk.injEq] at hr
    exact hr.1.symm
  | cons e es ih =>
    simp only [Slot.runs] at hr
    split at hr
    · cases hr
    · next s1 o1 h1 =>
      simp only [Option.map_eq_some_iff] at hr
      obtain ⟨⟨s2, o2⟩, hr, heq⟩ := hr
      simp only [Prod.mk.injEq] at heq
      obtain ⟨rfl, -⟩ := heq
      have hs : s1 = s := by
        have hpe := he e (by simp)
        cases e with
        | engine c =>
          cases c <;> simp only [Ev.passive, Bool.false_eq_true] at hpe
          simp [Slot.step, Slot.allows, Slot.call, Slot.recv, hi] at h1
          exact h1.1.symm
        | worker w =>
          simp only [Slot.step, Slot.wakeup, hp, hw] at h1
          cases w <;> simp at h1
      rw [hs] at hr
      exact ih (fun e' h' => he e' (by simp [h'])) hr

/-- C116, what does not hold: an abort is lost when it is posted in the same turn in which the handshake
completes. The driver's task then overwrites the command, the connection stays up, and when the peer has
finished its side the task waits for a command that never comes: the engine has dropped the connection and
will not use the socket before it is ready for reuse, so the socket is lost to the pool for good. -/
theorem C116_lost : ∃ (es : List (Ev Nat)) (t : List (Obs Nat)) (s : Slot Nat),
    (Slot.new Nat 16 16).runs ([.engine (.connect 5), .worker (.run 0), .engine .abort] ++ es) = some (s, t) ∧
    (∀ e ∈ es, e.passive = true) ∧
    ∀ es', (∀ e ∈ es', e.passive = true) → ∀ s' u, s.runs es' = some (s', u) →
      s'.reuseReady = false ∧ s'.isOpen = true := by
  refine ⟨[.worker (.up (some 5) 0), .worker (.run 0), .worker .woke, .worker (.run 0), .worker (.eof 0),
    .worker (.run 0)], _, _, rfl, by decide, ?_⟩
  intro es' he s' u hr
  have := stuck_runs (we := false) (by rfl) (by rfl) (by rfl) he hr
  subst this
  exact ⟨rfl, rfl⟩

/-- C116, a delay: a connection that both sides have closed gracefully, and of which every byte has been
handed over, may stay open until the engine aborts it at its close timeout. The task looks at the end of the
peer's stream before the engine has taken the last bytes, and taking them does not wake it. -/
theorem C116_delay : ∃ (es : List (Ev Nat)) (t : List (Obs Nat)) (s : Slot Nat),
    (Slot.new Nat 16 16).runs es = some (s, t) ∧ Obs.close ∈ latest t ∧ Obs.fin ∈ latest t ∧
    s.recvFinished = true ∧ s.sendQueue = 0 ∧ handed (latest t) = received (latest t) ∧
    transmitted (latest t) = [1] ∧ received (latest t) = [2, 3] ∧
    ∀ es', (∀ e ∈ es', e.passive = true) → ∀ s' u, s.runs es' = some (s', u) →
      s'.reuseReady = false ∧ s'.isOpen = true := by
  refine ⟨[.engine (.connect 5), .worker (.run 0), .worker (.up (some 5) 0), .engine (.send [1]),
    .worker (.run 0), .worker (.wrote 1 1), .worker (.flushed 0), .engine .close, .worker (.run 1),
    .worker .woke, .worker (.run 0), .worker (.data [2, 3] 0), .worker (.run 0), .worker (.eof 0),
    .worker (.run 0), .engine (.recv 8)], _, _, rfl, by decide, by decide, by decide, by decide, by decide,
    by decide, by decide, ?_⟩
  intro es' he s' u hr
  have := stuck_runs (we := true) (by rfl) (by rfl) (by rfl) he hr
  subst this
  exact ⟨rfl, rfl⟩

end Verif.Props
