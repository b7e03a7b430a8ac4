import Verif.Proof.QuicAll
import Verif.Proof.CoordLife
/-
What becomes of an exchange of the QUIC node: at most one payload, then at most one report, which tells the truth.
-/
namespace Verif.QBridge
open Verif Spec
variable {I A : Type} [DecidableEq I] {CI : DataCodec I} {CA : DataCodec A} {T : TEnv}

/-- A stream that brings nothing more. -/
def Over (s : Stream I A) : Prop := s.endpointEvents = [] ∧ (s.isFailed = true ∨ s.phase = .done)

/-- A bridge whose stream was opened in phase `p0` and brought `n` payloads so far. -/
structure QLife (p0 : Phase) (n : Nat) (b : QBridge I A) : Prop where
  life : Life p0 n b.stream ∨
    n ≤ 1 ∧ b.stream.endpointEvents = [] ∧ (b.stream.isFailed = true ∨ b.isFailed = true ∧ b.stream.phase = .done)
  recv : b.isFailed = false → b.phase = .recvClosed ∨ b.phase = .bothClosed → Expects p0 → b.stream.phase = .done

omit [DecidableEq I] in
theorem QLife.cnt {p0 : Phase} {n : Nat} {b : QBridge I A} (h : QLife p0 n b) : Cnt p0 n b.stream.endpointEvents := by
  rcases h.life with h | ⟨h1, h2, _⟩
  · exact h.cnt
  · rw [h2]; exact ⟨h1, by simp⟩

/-- Whether or not more payloads can come. -/
def SLife (p0 : Phase) (n : Nat) (s : Stream I A) : Prop := Life p0 n s ∨ n ≤ 1 ∧ Over s

omit [DecidableEq I] in
theorem QLife.slife {p0 : Phase} {n : Nat} {b : QBridge I A} (h : QLife p0 n b) : SLife p0 n b.stream := by
  rcases h.life with h | ⟨h1, h2, h3⟩
  · exact .inl h
  · exact .inr ⟨h1, h2, h3.imp id And.right⟩

omit [DecidableEq I] in
theorem Life.le {p0 : Phase} {n : Nat} {s : Stream I A} (h : Life p0 n s) : n ≤ 1 := by
  have := h.tot; omega

theorem over_data {s : Stream I A} (h : Over s) (d : Bytes) (now : Nat) :
    Over (s.handleData CI CA d now).1 ∧ (s.isFailed = true → (s.handleData CI CA d now).1 = s) := by
  obtain ⟨h1, h2⟩ := h
  unfold Stream.handleData
  split
  · next e hp => exact ⟨⟨h1, .inl (by unfold Stream.isFailed; rw [hp])⟩, fun _ => rfl⟩
  · next hp =>
    have hf : s.isFailed = false := by unfold Stream.isFailed; rw [hp]
    split
    · exact ⟨⟨h1, .inr hp⟩, fun _ => rfl⟩
    · exact ⟨⟨rfl, .inl rfl⟩, fun h => by rw [hf] at h; cases h⟩
  · next hnf hnd =>
    exfalso
    rcases h2 with h2 | h2
    · unfold Stream.isFailed at h2
      split at h2
      · next e hp => exact hnf _ hp
      · cases h2
    · exact hnd h2

theorem over_drain {max now : Nat} (fuel : Nat) : ∀ {s : Stream I A} {buf : Bytes}, Over s →
    Over (Bridge.drainUnits CI CA T none max now fuel s buf).1 ∧
      (s.isFailed = true → (Bridge.drainUnits CI CA T none max now fuel s buf).1 = s) := by
  induction fuel with
  | zero => intro s buf h; exact ⟨h, fun _ => rfl⟩
  | succ fuel ih =>
    intro s buf h
    simp only [Bridge.drainUnits]
    split
    · exact ⟨h, fun _ => rfl⟩
    · exact ⟨h, fun _ => rfl⟩
    · next plain used _ =>
      have hs := over_data (CI := CI) (CA := CA) h plain now
      split
      · next s1 _ hd => rw [hd] at hs; exact hs
      · next s1 hd =>
        rw [hd] at hs
        have := ih (buf := buf.drop used) hs.1
        refine ⟨this.1, fun hf => ?_⟩
        have e := hs.2 hf
        dsimp only at e
        rw [this.2 (by rw [e]; exact hf), e]

theorem slife_drain {max now : Nat} {p0 : Phase} {n : Nat} (fuel : Nat) : ∀ {s : Stream I A} {buf : Bytes}, SLife p0 n s →
    SLife p0 n (Bridge.drainUnits CI CA T none max now fuel s buf).1 := by
  induction fuel with
  | zero => intro s buf h; exact h
  | succ fuel ih =>
    intro s buf h
    rcases h with h | ⟨h1, h2⟩
    · simp only [Bridge.drainUnits]
      split
      · exact .inl h
      · exact .inl h
      · next plain used _ =>
        split
        · next s1 e hr =>
          rcases h.data hr with ⟨hc, _⟩ | ⟨_, hf, he⟩
          · cases hc
          · exact .inr ⟨Life.le h, he, .inl hf⟩
        · next s1 hr =>
          rcases h.data hr with ⟨_, hl, _⟩ | ⟨hc, _⟩
          · exact ih (.inl hl)
          · exact absurd rfl hc
    · exact .inr ⟨h1, (over_drain _ h2).1⟩

omit [DecidableEq I] in
/-- A bridge that failed. -/
theorem QLife.failed {p0 : Phase} {n : Nat} {b : QBridge I A} (h : SLife p0 n b.stream) (hf : b.isFailed = true) : QLife p0 n b := by
  refine ⟨?_, fun hc => by rw [hf] at hc; cases hc⟩
  rcases h with h | ⟨h1, h2, h3⟩
  · exact .inl h
  · exact .inr ⟨h1, h2, h3.imp id (fun h => ⟨hf, h⟩)⟩

omit [DecidableEq I] in
theorem SLife.le {p0 : Phase} {n : Nat} {s : Stream I A} (h : SLife p0 n s) : n ≤ 1 := by
  rcases h with h | h
  · exact Life.le h
  · exact h.1

omit [DecidableEq I] in
theorem SLife.discard {p0 : Phase} {n : Nat} {s : Stream I A} (h : SLife p0 n s) : SLife p0 n s.discardPending := by
  have hle := h.le
  rcases h with h | ⟨h1, h2, h3⟩
  · unfold Life at h
    cases hp : s.phase with
    | outSending k => rw [hp] at h; left; unfold Life Stream.discardPending; dsimp only; rw [hp]; exact ⟨h.1, rfl, h.2.2⟩
    | outAwaiting k => rw [hp] at h; left; unfold Life Stream.discardPending; dsimp only; rw [hp]; exact ⟨h.1, h.2.1, rfl, h.2.2.2⟩
    | inAwaiting => rw [hp] at h; left; unfold Life Stream.discardPending; dsimp only; rw [hp]; exact ⟨h.1, rfl, h.2.2⟩
    | inSending =>
      rw [hp] at h; left; unfold Life Stream.discardPending; dsimp only; rw [hp]
      exact ⟨h.1, hle, fun hc => absurd rfl hc, by simp⟩
    | done => exact .inr ⟨hle, rfl, .inr hp⟩
    | failed e => rw [hp] at h; exact h.elim
  · exact .inr ⟨h1, rfl, h3⟩

omit [DecidableEq I] in
theorem QLife.drop {p0 : Phase} {n : Nat} {b : QBridge I A} (h : SLife p0 n b.stream) (r : LinkFail) : QLife p0 n (b.drop r) := by
  unfold QBridge.drop fail
  split
  · next hf => exact .failed (b := { b with pendingOut := [] }) h hf
  · refine .failed ?_ rfl
    dsimp only
    by_cases hp : b.phase = .recvClosed ∨ b.phase = .bothClosed
    · rw [if_pos hp]; exact h
    · rw [if_neg hp]; exact h.discard

omit [DecidableEq I] in
theorem QLife.fail {p0 : Phase} {n : Nat} {b : QBridge I A} (h : SLife p0 n b.stream) (r : LinkFail) : QLife p0 n (b.fail r) := by
  unfold QBridge.fail
  split
  · next hf => exact .failed h hf
  · refine .failed ?_ rfl
    dsimp only
    by_cases hp : b.phase = .recvClosed ∨ b.phase = .bothClosed
    · rw [if_pos hp]; exact h
    · rw [if_neg hp]; exact h.discard

/-- What a chunk does to the stream. -/
theorem takeChunk_stream (b : QBridge I A) (bytes : Bytes) (now : Nat) :
    (b.takeChunk CI CA T bytes now).1.stream = b.stream ∨
    ∃ fuel buf, (b.takeChunk CI CA T bytes now).1.stream = (Bridge.drainUnits CI CA T none b.max now fuel b.stream buf).1 ∧
      ((b.takeChunk CI CA T bytes now).2 = false → (Bridge.drainUnits CI CA T none b.max now fuel b.stream buf).2.2 = .all) := by
  unfold takeChunk
  dsimp only
  split
  · refine .inr ⟨_, _, rfl, fun h => ?_⟩
    unfold takeUnits at h
    dsimp only at h
    simpa using h
  · split
    · next k hk =>
      right
      split
      · refine ⟨_, _, rfl, fun h => ?_⟩
        unfold takeUnits at h
        dsimp only at h
        simpa using h
      · refine ⟨_, _, rfl, fun h => ?_⟩
        unfold takeUnits at h
        dsimp only at h
        simpa using h
    · exact .inl rfl
    · exact .inl rfl

omit [DecidableEq I] in
theorem life_expects {p0 : Phase} {n : Nat} {s : Stream I A} (h : Life p0 n s) (hs : Settled s) (hx : Expects p0) :
    s.phase = .done := by
  unfold Life at h
  unfold Settled at hs
  revert h hs
  cases hp : s.phase with
  | outSending k => cases k <;> simp; intro h; rw [h] at hx; exact absurd rfl hx
  | outAwaiting k => simp
  | inAwaiting => simp
  | inSending => simp; intro h; rw [h] at hx; exact hx.elim
  | done => simp
  | failed e => simp

theorem QLife.move {p0 : Phase} {n : Nat} {b b' : QBridge I A} (h : QLife p0 n b) (hm : BMove CI CA T b b') : QLife p0 n b' := by
  cases hm with
  | flag q => exact ⟨h.life, h.recv⟩
  | wrote k => exact ⟨h.life, h.recv⟩
  | finish => exact ⟨h.life, h.recv⟩
  | drop r => exact .drop h.slife r
  | fail r => exact .fail h.slife r
  | late r hs =>
    refine QLife.drop (b := b.observeRecvFin) ?_ r
    have : b.observeRecvFin.stream = b.stream := by unfold observeRecvFin; split <;> rfl
    rw [this]; exact h.slife
  | refuse bytes now r =>
    refine .drop ?_ r
    rcases takeChunk_stream (CI := CI) (CA := CA) (T := T) b bytes now with e | ⟨fuel, buf, e, _⟩
    · rw [e]; exact h.slife
    · rw [e]; exact slife_drain fuel h.slife
  | cut now r =>
    refine QLife.drop (b := { b with stream := (b.stream.handleData CI CA [] now).1 }) ?_ r
    dsimp only
    rcases h.slife with h1 | ⟨h1, h2⟩
    · rcases hd : b.stream.handleData CI CA [] now with ⟨s', r'⟩
      rcases h1.data hd with ⟨_, hl, _⟩ | ⟨_, hf, he⟩
      · exact .inl hl
      · exact .inr ⟨Life.le h1, he, .inl hf⟩
    · exact .inr ⟨h1, (over_data h2 [] now).1⟩
  | timeout now r =>
    refine QLife.drop (b := { b with stream := b.stream.handleTimeout now }) ?_ r
    dsimp only
    unfold Stream.handleTimeout
    split
    · split
      · exact h.slife
      · exact h.slife
      · exact .inr ⟨h.slife.le, rfl, .inl rfl⟩
    · exact h.slife
  | chunk bytes now hc =>
    have hph := takeChunk_phase (CI := CI) (CA := CA) (T := T) b bytes now
    have hfl : (b.takeChunk CI CA T bytes now).1.isFailed = b.isFailed := by unfold isFailed; rw [hph]
    rcases takeChunk_stream (CI := CI) (CA := CA) (T := T) b bytes now with e | ⟨fuel, buf, e, hall⟩
    · exact ⟨by rw [e, hfl]; exact h.life, by rw [e, hfl, hph]; exact h.recv⟩
    · replace hall := hall hc
      rcases hx : Bridge.drainUnits CI CA T none b.max now fuel b.stream buf with ⟨s', left, d⟩
      rw [hx] at e hall
      dsimp only at e hall
      subst hall
      refine ⟨?_, ?_⟩
      · rw [e, hfl]
        rcases h.life with h1 | ⟨h1, h2, h3⟩
        · exact .inl ((Bridge.drainUnits_life fuel h1 hx).2 rfl).1
        · have := over_drain (CI := CI) (CA := CA) (T := T) (max := b.max) (now := now) (buf := buf) fuel (s := b.stream) ⟨h2, h3.imp id And.right⟩
          rw [hx] at this
          refine .inr ⟨h1, this.1.1, ?_⟩
          rcases h3 with h3 | ⟨h3, h4⟩
          · have e2 := this.2 h3
            dsimp only at e2
            rw [e2]; exact .inl h3
          · exact this.1.2.imp id (fun h => ⟨h3, h⟩)
      · rw [e, hfl, hph]
        intro hnf hp hx'
        rcases h.life with h1 | ⟨h1, h2, h3⟩
        · obtain ⟨g1, _, g3⟩ := (Bridge.drainUnits_life fuel h1 hx).2 rfl
          have hd := h.recv hnf hp hx'
          exact life_expects g1 (g3 (by unfold Settled; rw [hd]; trivial)) hx'
        · exfalso
          have hd := h.recv hnf hp hx'
          rcases h3 with h3 | ⟨h3, _⟩
          · unfold Stream.isFailed at h3; rw [hd] at h3; cases h3
          · rw [hnf] at h3; cases h3
  | recvFin now hs hd =>
    have hst : b.observeRecvFin.stream = b.stream := by unfold observeRecvFin; split <;> rfl
    have hfl : b.observeRecvFin.isFailed = b.isFailed := by
      unfold observeRecvFin
      split
      · next hp => unfold isFailed; rw [hp]
      · next hp => unfold isFailed; rw [hp]
      · rfl
    refine ⟨by rw [hst, hfl]; exact h.life, ?_⟩
    rw [hst, hfl]
    intro hnf _ hx
    rcases h.life with h1 | ⟨_, _, h3⟩
    · exact life_expects h1 (eof_settled hd).2.1 hx
    · rcases h3 with h3 | ⟨h3, _⟩
      · rw [hs] at h3; cases h3
      · rw [hnf] at h3; cases h3
  | sendFin =>
    have hst : b.observeSendFin.stream = b.stream := by unfold observeSendFin; split <;> rfl
    have hfl : b.observeSendFin.isFailed = b.isFailed := by
      unfold observeSendFin
      split
      · next hp => unfold isFailed; rw [hp]
      · next hp => unfold isFailed; rw [hp]
      · rfl
    refine ⟨by rw [hst, hfl]; exact h.life, ?_⟩
    rw [hst, hfl]
    intro hnf hp hx
    refine h.recv hnf ?_ hx
    revert hp
    unfold observeSendFin
    split
    · simp
    · next hp => intro _; exact .inl hp
    · exact fun h => h
  | gather now =>
    have hph := gather_phase T b now
    have hfl : (b.gather T now).isFailed = b.isFailed := by unfold isFailed; rw [hph]
    have hs : b.putLabel.stream = b.stream := by unfold putLabel; split <;> rfl
    have hst : (b.gather T now).stream = (b.stream.pollTransmit now).1 := by
      unfold gather
      dsimp only
      rw [hs]
      split <;> next hx => rw [hx]
    have key : ∀ s : Stream I A, s.phase = .done ∨ s.isFailed = true → (s.pollTransmit now).1 = s := by
      intro s hd
      unfold Stream.pollTransmit
      split
      · rfl
      · rfl
      · next hnd hnf =>
        exfalso
        rcases hd with hd | hd
        · exact hnd hd
        · unfold Stream.isFailed at hd
          split at hd
          · next e hp => exact hnf _ hp
          · cases hd
    refine ⟨?_, ?_⟩
    · rw [hst, hfl]
      rcases h.life with h1 | ⟨h1, h2, h3⟩
      · rcases h1.poll now with ⟨g1, g2, _⟩ | ⟨g1, _⟩ | ⟨g1, _⟩
        · exact .inr ⟨Life.le h1, g2, .inl g1⟩
        · rw [g1]; exact .inl h1
        · exact .inl g1
      · rw [key _ (h3.symm.imp And.right id)]
        exact .inr ⟨h1, h2, h3⟩
    · rw [hst, hfl, hph]
      intro hnf hp hx
      have := h.recv hnf hp hx
      rw [key _ (.inl this)]; exact this

/-- A payload is handed over. -/
theorem QLife.commit {p0 : Phase} {n : Nat} {R : Bytes → Prop} {b b' : QBridge I A} {ev : PayloadEvent I A} {rest : List (PayloadEvent I A)}
    (h : QLife p0 n b) (hev : b.stream.endpointEvents = ev :: rest) (hc : b.Committed R ev rest b') :
    QLife p0 (n + 1) b' ∧ Fits p0 ev := by
  have hl : Life p0 n b.stream := by
    rcases h.life with h | ⟨_, h2, _⟩
    · exact h
    · rw [hev] at h2; cases h2
  refine ⟨?_, hl.fits ev (by rw [hev]; exact List.mem_cons_self)⟩
  obtain ⟨hr, g1, g2⟩ := hl.take hev
  subst hr
  rcases hc with rfl | ⟨hq, body, dl, _, rfl⟩
  · exact ⟨.inl g1, h.recv⟩
  · rcases g2 with g2 | ⟨_, g2⟩
    · refine ⟨.inl ?_, h.recv⟩
      show Life p0 (n + 1) { b.stream with endpointEvents := [], outputBuf := _, deadline := _ }
      unfold Life at g1 ⊢
      dsimp only at g1 ⊢
      rw [g2] at g1 ⊢
      exact ⟨g1.1, g1.2.1, fun hc => absurd rfl hc, g1.2.2.2⟩
    · rw [hq] at g2; cases g2

end Verif.QBridge

namespace Verif.Quic
open Verif Map QBridge Spec
variable {I A : Type} [DecidableEq I] [DecidableEq A] {Q : Quinn A}
variable {cfg : Cfg I A} {env : Env I A} {X : QCfg} {T : TEnv}

omit [DecidableEq I] [DecidableEq A] in
theorem told_append (l l2 : List (Option Nat × Ep.Op I A)) (x : Nat) : told (l ++ l2) x = told l x ++ told l2 x := by
  unfold told; rw [List.filter_append, List.map_append, List.filterMap_append]

omit [DecidableEq I] [DecidableEq A] in
theorem told_quiet {y : Option Nat} {op : Ep.Op I A} (h : toldOf op = none) (x : Nat) : told [(y, op)] x = [] := by
  unfold told
  by_cases hy : y = some x
  · rw [List.filter_cons_of_pos (by simpa using hy)]
    show [op].filterMap toldOf = []
    rw [List.filterMap_cons_none h]; rfl
  · rw [List.filter_cons_of_neg (by simpa using hy)]; rfl

omit [DecidableEq I] [DecidableEq A] in
theorem told_other {y x : Nat} {op : Ep.Op I A} (h : y ≠ x) : told [(some y, op)] x = [] := by
  unfold told
  rw [List.filter_cons_of_neg (by simpa using h)]; rfl

omit [DecidableEq I] [DecidableEq A] in
theorem told_this {x : Nat} {op : Ep.Op I A} {m : Told I A} (h : toldOf op = some m) : told [(some x, op)] x = [m] := by
  unfold told
  rw [List.filter_cons_of_pos (by simp)]
  show [op].filterMap toldOf = _
  rw [List.filterMap_cons_some h]; rfl

/-- What is known of an exchange on a stream. -/
def Running (s : Quic I Q) (id : Nat) (b : QBridge I A) : Prop :=
  ∃ (p0 : Phase) (ps : List (PayloadEvent I A)), told s.calls id = ps.map .payload ∧ QLife p0 ps.length b ∧
    (∀ ev ∈ ps, Fits p0 ev) ∧ ∀ kind, s.kinds.get? id = some kind → ∃ k, p0 = .outSending k ∧ Coord.KindFits k kind

structure LifeInv (cfg : Cfg I A) (env : Env I A) (X : QCfg) (s : Quic I Q) : Prop where
  spent : ∀ x, told s.calls x ≠ [] → x ∈ s.done ∨ x ∈ s.bridges.keys ∨ IdsInv cfg env X [x] s
  over : ∀ x, s.bridges.get? x = none → Coord.Over x (told s.calls x)
  under : ∀ id b, s.bridges.get? id = some b → Running s id b

omit [DecidableEq I] in
theorem done_more {a b : Quic I Q} {l : List (Option Nat × Ep.Op I A)} (hc : b.calls = a.calls ++ l) :
    b.done = a.done ++ l.filterMap reportedId := by
  unfold done; rw [hc, List.filterMap_append]

theorem LifeInv.keep {a b : Quic I Q} (h : LifeInv cfg env X a) (hk : BooksInv a) (hm : Move cfg env X T a b)
    {l : List (Option Nat × Ep.Op I A)} (hc : b.calls = a.calls ++ l) (hkeys : ∀ x ∈ a.bridges.keys, x ∈ b.bridges.keys)
    (hn : ∀ x, told l x ≠ [] → x ∈ b.done ∨ x ∈ b.bridges.keys) :
    ∀ x, told b.calls x ≠ [] → x ∈ b.done ∨ x ∈ b.bridges.keys ∨ IdsInv cfg env X [x] b := by
  intro x hx
  rw [hc, told_append] at hx
  by_cases hl : told l x = []
  · rw [hl, List.append_nil] at hx
    rcases h.spent x hx with g | g | g
    · rw [done_more hc]; exact .inl (List.mem_append_left _ g)
    · exact .inr (.inl (hkeys x g))
    · exact .inr (.inr (g.move hk hm))
  · rcases hn x hl with g | g
    · exact .inl g
    · exact .inr (.inl g)

/-- Nothing is told, and the bridges stay. -/
theorem LifeInv.quiet {a b : Quic I Q} (h : LifeInv cfg env X a) (hk : BooksInv a) (hm : Move cfg env X T a b)
    (l : List (Option Nat × Ep.Op I A)) (hc : b.calls = a.calls ++ l) (hl : ∀ x, told l x = []) (hb : b.bridges = a.bridges)
    (hkind : ∀ id b0, a.bridges.get? id = some b0 → ∀ k, b.kinds.get? id = some k → a.kinds.get? id = some k) :
    LifeInv cfg env X b := by
  have ht : ∀ x, told b.calls x = told a.calls x := fun x => by rw [hc, told_append, hl, List.append_nil]
  refine ⟨h.keep hk hm hc (fun x hx => by rw [hb]; exact hx) (fun x hx => absurd (hl x) hx), ?_, ?_⟩
  · intro x hx
    rw [ht]; rw [hb] at hx; exact h.over x hx
  · intro id b0 hb0
    rw [hb] at hb0
    obtain ⟨p0, ps, h1, h2, h3, h4⟩ := h.under id b0 hb0
    exact ⟨p0, ps, by rw [ht]; exact h1, h2, h3, fun kind hkd => h4 kind (hkind id b0 hb0 kind hkd)⟩

/-- Nothing was told yet. -/
theorem LifeInv.unspent {s : Quic I Q} (h : LifeInv cfg env X s) {x : Nat} (h1 : x ∉ s.done) (h2 : x ∉ s.bridges.keys)
    (h3 : ¬ IdsInv cfg env X [x] s) : told s.calls x = [] := by
  cases ht : told s.calls x with
  | nil => rfl
  | cons m l =>
    exfalso
    rcases h.spent x (by rw [ht]; simp) with g | g | g
    · exact h1 g
    · exact h2 g
    · exact h3 g

/-- Nothing was told of an exchange that waits to be dialled. -/
theorem LifeInv.waits {s : Quic I Q} (h : LifeInv cfg env X s) (hi : IdsInv cfg env X [] s) {d : QDial A} (hd : d ∈ s.entries) :
    told s.calls d.id = [] := by
  have hh := entry_held hd
  refine h.unspent ?_ (hi.apart hd) ?_
  · intro hc
    have h1 : (s.done ++ s.held).Nodup := hi.ids.nodup.sublist (List.sublist_append_left _ _)
    exact (List.disjoint_of_nodup_append h1) hc hh
  · intro hc
    have h1 : ([d.id] ++ s.done ++ s.held).Nodup := hc.ids.nodup.sublist (List.sublist_append_left _ _)
    rw [List.append_assoc] at h1
    exact (List.disjoint_of_nodup_append h1) List.mem_cons_self (List.mem_append_right _ hh)

/-- Nothing was told of an exchange that does not exist. -/
theorem LifeInv.unborn {s : Quic I Q} (h : LifeInv cfg env X s) (hi : IdsInv cfg env X [] s) :
    told s.calls s.ep.net.nextStreamId = [] := by
  refine h.unspent ?_ ?_ ?_
  · intro hc
    exact Nat.lt_irrefl _ (hi.ids.lt _ (List.mem_append_left _ (List.mem_append_left _ hc)))
  · intro hc
    exact hi.fresh (List.mem_append_right _ hc)
  · intro hc
    exact Nat.lt_irrefl _ (hc.ids.lt _ (List.mem_append_left _ (List.mem_append_left _ List.mem_cons_self)))

omit [DecidableEq I] [DecidableEq A] in
theorem over_failed {x : Nat} {p : A} {k : ExKind} {l : List (Told I A)}
    (h : l = [.report ⟨x, p, false, k⟩]) : Coord.Over x l := by
  refine ⟨none, some ⟨x, p, false, k⟩, h, ?_⟩
  intro c hc
  injection hc with hc
  subst hc
  exact ⟨rfl, by (intro h; cases h), fun _ => rfl⟩

/-- A dial that succeeded serves what it was made for. -/
theorem minted_kind {e : Ep I A} {id now : Nat} {st : Stream I A}
    (h : (e.step cfg env (.dialSucceeded id now)).2 = .stream (some st)) :
    ∃ k, st.phase = .outSending k ∧ Coord.KindFits k (e.intentKind id) := by
  simp only [Ep.step, Ep.Out.stream.injEq] at h
  unfold Ep.dialSucceeded at h
  unfold Ep.intentKind
  split at h
  · cases h
  · next i hi =>
    rw [hi]
    simp only [] at h
    split at h
    · cases h
    · split at h
      · cases h
      · simp only [Option.some.injEq] at h
        subst h
        refine ⟨_, rfl, ?_⟩
        dsimp only
        cases i.kind <;> trivial

/-- The end of an exchange that ran. -/
theorem Running.over {s : Quic I Q} {id : Nat} {b : QBridge I A} (h : Running s id b) (ht : b.isTerminal = true)
    (hev : b.stream.endpointEvents = []) (r : Option (Completion A))
    (hr : ∀ c, r = some c → c.exchange = id ∧ c.ok = !b.isFailed ∧ s.kinds.get? id = some c.kind)
    {l : List (Told I A)} (hl : l = told s.calls id ++ r.toList.map .report) : Coord.Over id l := by
  obtain ⟨p0, ps, h1, h2, h3, h4⟩ := h
  obtain ⟨p, hp⟩ := Coord.one_payload h2.cnt.1
  subst hp
  refine ⟨p, r, by rw [hl, h1], fun c hc => ?_⟩
  obtain ⟨e1, e2, e3⟩ := hr c hc
  obtain ⟨k, e0, hf⟩ := h4 _ e3
  subst e0
  refine ⟨e1, fun hok hne => ?_, fun hu => ?_⟩
  · rw [e2] at hok
    have hnf : b.isFailed = false := by simpa using hok
    have hbc : b.phase = .bothClosed := by
      unfold isTerminal at ht
      unfold isFailed at hnf
      revert ht hnf
      cases b.phase <;> simp
    have hx : Expects (.outSending k) := by
      intro hk'
      subst hk'
      revert hf hne
      cases c.kind <;> simp [Coord.KindFits]
    have hdone := h2.recv hnf (.inr hbc) hx
    have hlife : Life (.outSending k) p.toList.length b.stream := by
      rcases h2.life with g | ⟨_, _, g | ⟨g, _⟩⟩
      · exact g
      · unfold Stream.isFailed at g; rw [hdone] at g; cases g
      · rw [hnf] at g; cases g
    unfold Life at hlife
    rw [hdone] at hlife
    have h5 := hlife.2.2.1 hx
    rw [hev] at h5
    cases p with
    | none => simp at h5
    | some ev =>
      refine ⟨ev, rfl, ?_⟩
      have := h3 ev (by simp)
      revert this hf hne
      cases k <;> cases c.kind <;> cases ev <;> simp [Coord.KindFits, Fits, AnswerTo]
  · cases p with
    | none => rfl
    | some ev =>
      exfalso
      have := h3 ev (by simp)
      rw [hu] at hf
      revert this hf
      cases k <;> cases ev <;> simp [Coord.KindFits, Fits]

/-- One bridge changes or is added. -/
theorem LifeInv.put {a b : Quic I Q} (h : LifeInv cfg env X a) (hk : BooksInv a) (hm : Move cfg env X T a b) {id : Nat}
    {b' : QBridge I A} {l : List (Option Nat × Ep.Op I A)} (hc : b.calls = a.calls ++ l)
    (hl : ∀ x, id ≠ x → told l x = []) (hbr : b.bridges = a.bridges.insert id b') (hkind : b.kinds = a.kinds)
    (hrun : Running b id b') : LifeInv cfg env X b := by
  have hin : id ∈ b.bridges.keys := mem_keys.2 ⟨b', mem_of_get? (by rw [hbr]; exact get?_insert_self ..)⟩
  have hsub : ∀ x ∈ a.bridges.keys, x ∈ b.bridges.keys := by
    intro x hx
    rw [hbr, keys_insert]
    split
    · exact hx
    · exact List.mem_append_left _ hx
  have ht : ∀ x, id ≠ x → told b.calls x = told a.calls x := fun x hx => by rw [hc, told_append, hl x hx, List.append_nil]
  refine ⟨h.keep hk hm hc hsub ?_, ?_, ?_⟩
  · intro x hx
    by_cases e : id = x
    · subst e; exact .inr hin
    · exact absurd (hl x e) hx
  · intro x hx
    rw [hbr, get?_insert] at hx
    split at hx
    · cases hx
    · next e => rw [ht x e]; exact h.over x hx
  · intro x b0 hx
    rw [hbr, get?_insert] at hx
    split at hx
    · next e => subst e; injection hx with hx; subst hx; exact hrun
    · next e =>
      obtain ⟨p0, ps, h1, h2, h3, h4⟩ := h.under x b0 hx
      exact ⟨p0, ps, by rw [ht x e]; exact h1, h2, h3, by rw [hkind]; exact h4⟩

/-- An exchange that never ran is over. -/
theorem LifeInv.ended {a b : Quic I Q} (h : LifeInv cfg env X a) (hk : BooksInv a) (hm : Move cfg env X T a b) {id : Nat}
    {l : List (Option Nat × Ep.Op I A)} (hc : b.calls = a.calls ++ l) (hbr : b.bridges = a.bridges)
    (hid : id ∉ a.bridges.keys) (h0 : told a.calls id = []) (hl : ∀ x, id ≠ x → told l x = [])
    (hr : told l id = [] ∨ id ∈ b.done ∧ ∃ p k, told l id = [.report ⟨id, p, false, k⟩])
    (hkind : ∀ x, id ≠ x → ∀ k, b.kinds.get? x = some k → a.kinds.get? x = some k) : LifeInv cfg env X b := by
  have ht : ∀ x, id ≠ x → told b.calls x = told a.calls x := fun x hx => by rw [hc, told_append, hl x hx, List.append_nil]
  refine ⟨h.keep hk hm hc (fun x hx => by rw [hbr]; exact hx) ?_, ?_, ?_⟩
  · intro x hx
    by_cases e : id = x
    · subst e
      rcases hr with hr | ⟨hr, _⟩
      · exact absurd hr hx
      · exact .inl hr
    · exact absurd (hl x e) hx
  · intro x hx
    by_cases e : id = x
    · subst e
      have ho := h.over id (by rw [hbr] at hx; exact hx)
      rcases hr with hr | ⟨_, p, k, hr⟩
      · rw [hc, told_append, hr, List.append_nil]; exact ho
      · exact over_failed (by rw [hc, told_append, hr, h0]; rfl)
    · rw [ht x e]; rw [hbr] at hx; exact h.over x hx
  · intro x b0 hx
    rw [hbr] at hx
    have e : id ≠ x := by
      intro e; subst e
      exact hid (mem_keys.2 ⟨b0, mem_of_get? hx⟩)
    obtain ⟨p0, ps, h1, h2, h3, h4⟩ := h.under x b0 hx
    exact ⟨p0, ps, by rw [ht x e]; exact h1, h2, h3, fun k hk => h4 k (hkind x e k hk)⟩

/-- A bridge just made. -/
theorem new_life {p0 : Phase} {b : QBridge I A} (hl : Life p0 0 b.stream) (hp : b.phase = .active) : QLife p0 0 b := by
  refine ⟨.inl hl, fun _ h => ?_⟩
  rw [hp] at h
  rcases h with h | h <;> cases h

theorem LifeInv.move {a b : Quic I Q} (h : LifeInv cfg env X a) (hi : IdsInv cfg env X [] a) (hk : BooksInv a)
    (hh : HeldInv a) (hm : Move cfg env X T a b) : LifeInv cfg env X b := by
  have same : ∀ {k : Map Nat ExKind}, k = a.kinds → ∀ id b0, a.bridges.get? id = some b0 → ∀ x, k.get? id = some x → a.kinds.get? id = some x :=
    fun hk' id b0 _ x hx => by rw [← hk']; exact hx
  have z : ∀ {b : Quic I Q}, Move cfg env X T a b → b.calls = a.calls → b.bridges = a.bridges → b.kinds = a.kinds → LifeInv cfg env X b :=
    fun hm h1 h2 h3 => h.quiet hk hm [] (by rw [h1, List.append_nil]) (fun _ => rfl) h2 (same h3)
  have one : ∀ {b : Quic I Q} (x : Option Nat) (op : Ep.Op I A), Move cfg env X T a b → toldOf op = none → b.calls = a.calls ++ [(x, op)] →
      b.bridges = a.bridges → b.kinds = a.kinds → LifeInv cfg env X b :=
    fun x op hm h0 h1 h2 h3 => h.quiet hk hm [(x, op)] h1 (told_quiet h0) h2 (same h3)
  have hm0 := hm
  cases hm with
  | push src bytes => refine z hm0 ?_ ?_ ?_ <;> unfold pushIngress <;> split <;> rfl
  | call x op hp =>
    refine one x op hm0 ?_ rfl rfl rfl
    cases op <;> first | rfl | exact hp.elim | (rename_i ev _; cases ev <;> first | rfl | exact hp.elim)
  | noop x op he hx hpay =>
    refine one x op hm0 ?_ rfl rfl rfl
    cases op <;> first | rfl | exact absurd rfl (hx _) | exact absurd rfl (hpay _ _)
  | @commit id b0 ev rest b' now hb hev hr hb' =>
    obtain ⟨p0, ps, h1, h2, h3, h4⟩ := h.under id b0 hb
    obtain ⟨g1, g2⟩ := h2.commit hev hb'
    refine h.put hk hm0 (l := [(some id, .streamEvent (.payload ev) now)]) rfl (fun x hx => told_other hx) rfl rfl
      ⟨p0, ps ++ [ev], ?_, by rw [List.length_append]; exact g1, ?_, h4⟩
    · show told (a.calls ++ [_]) id = _
      rw [told_append, h1, told_this rfl, List.map_append]; rfl
    · intro e he
      rcases List.mem_append.1 he with he | he
      · exact h3 e he
      · rw [List.mem_singleton] at he; subst he; exact g2
  | @tweak id b0 b' hb hmv =>
    obtain ⟨p0, ps, h1, h2, h3, h4⟩ := h.under id b0 hb
    exact h.put hk hm0 (l := []) (List.append_nil _).symm (fun _ _ => rfl) rfl rfl ⟨p0, ps, h1, h2.move hmv, h3, h4⟩
  | sieve _ => unfold takeDials; refine one none .sieveDials hm0 rfl ?_ ?_ ?_ <;> rw [sieve_eq]
  | pollDial id peer deadline hp => unfold setTimer; refine one none .pollEvent hm0 rfl ?_ ?_ ?_ <;> rw [queueDial_eq] <;> rfl
  | pollOther _ => exact one none .pollEvent hm0 rfl rfl rfl rfl
  | takeEntry d rest _ _ => refine z hm0 ?_ ?_ ?_ <;> rw [takeEntry_eq]
  | repark d now _ => obtain ⟨w, hw⟩ := repark_eq (X := X) a d now; refine z hm0 ?_ ?_ ?_ <;> rw [hw]
  | retire d hl =>
    have hdm : d ∈ a.entries := by rw [entries_some hl]; simp
    have key : (∀ x, d.id ≠ x → told (a.lastWords d.id) x = []) ∧
        (told (a.lastWords d.id) d.id = [] ∨ d.id ∈ (a.lastWords d.id).filterMap reportedId ∧
          ∃ p k, told (a.lastWords d.id) d.id = [.report ⟨d.id, p, false, k⟩]) := by
      have z : ∀ x, told [(some d.id, (Ep.Op.dialFailed d.id : Ep.Op I A))] x = [] := fun x => told_quiet rfl x
      have n : (∀ x, d.id ≠ x → told ([] ++ [(some d.id, (Ep.Op.dialFailed d.id : Ep.Op I A))]) x = []) ∧
        (told ([] ++ [(some d.id, (Ep.Op.dialFailed d.id : Ep.Op I A))]) d.id = [] ∨
          d.id ∈ ([] ++ [(some d.id, (Ep.Op.dialFailed d.id : Ep.Op I A))]).filterMap reportedId ∧
          ∃ p k, told ([] ++ [(some d.id, (Ep.Op.dialFailed d.id : Ep.Op I A))]) d.id = [.report ⟨d.id, p, false, k⟩]) :=
        ⟨fun x _ => z x, .inl (z _)⟩
      unfold lastWords
      split
      · exact n
      · next kd p _ hk' hp' =>
        refine ⟨fun x hx => ?_, .inr ⟨?_, p, kd, ?_⟩⟩
        · rw [told_append, told_other hx, z]; rfl
        · show d.id ∈ [d.id]; exact List.mem_cons_self
        · rw [told_append, told_this rfl, z]; rfl
      · exact n
    rw [retire_eq] at hm0 ⊢
    refine h.ended hk hm0 rfl rfl (hi.apart hdm) (h.waits hi hdm) key.1 ?_ ?_
    · refine key.2.imp id (fun g => ⟨?_, g.2⟩)
      rw [done_more (a := a) rfl]
      exact List.mem_append_right _ g.1
    · intro x hx k hk'
      dsimp only at hk'
      rw [get?_erase, if_neg hx] at hk'
      exact hk'
  | mint d now ch sid e t st hl hd he hc ht' hst =>
    obtain ⟨h1, _, i, hint, _⟩ := minted_facts hst
    have hdm : d ∈ a.entries := by rw [entries_some hl]; simp
    have hlife := (Coord.opened_life (mint := .outbound d.id) hst).1
    obtain ⟨k, hph, hfit⟩ := minted_kind hst
    have hag := (hi.agree d hdm i hint).2
    have h0 := h.waits hi hdm
    generalize hs' : ((({ a with pool := { (a.pool.dial Q X.caps now d.peer).1 with table := t } } : Quic I Q).callEp cfg env
        (some d.id) (.dialSucceeded d.id now)).1.mintDialled cfg X st ch sid) = s' at hm0 ⊢
    have e1 : s'.calls = a.calls ++ [(some d.id, .dialSucceeded d.id now)] := by rw [← hs']; rfl
    have e2 : s'.kinds = a.kinds := by rw [← hs']; rfl
    obtain ⟨b', e3, e4, e5⟩ : ∃ b', s'.bridges = a.bridges.insert st.id b' ∧ b'.stream = st ∧ b'.phase = .active := by
      rw [← hs']; exact ⟨_, rfl, rfl, rfl⟩
    rw [h1] at e3
    refine h.put hk hm0 e1 (fun x _ => told_quiet rfl x) e3 e2 ⟨st.phase, [], ?_, new_life (by rw [e4]; exact hlife) e5, by simp, ?_⟩
    · rw [e1, told_append, h0, told_quiet rfl]; rfl
    · intro kind hkd
      rw [e2] at hkd
      have := (hh.entry d hdm kind hkd).1
      rw [hag, ← this] at hfit
      exact ⟨k, hph, hfit⟩
  | accept ch sid now e st hh' hd he hc hst =>
    obtain ⟨h1, _⟩ := accepted_facts hst
    have hlife := (Coord.opened_life (mint := .inbound e.peer) hst).1
    have h0 := h.unborn hi
    have hkn := (unheld_kind hh hi.fresh).1
    generalize hs' : (a.callEp cfg env none (.acceptStream e.peer now)).1.openBridge cfg X st ch sid false = s' at hm0 ⊢
    have e1 : s'.calls = a.calls ++ [(none, .acceptStream e.peer now)] := by rw [← hs']; rfl
    have e2 : s'.kinds = a.kinds := by rw [← hs']; rfl
    obtain ⟨b', e3, e4, e5⟩ : ∃ b', s'.bridges = a.bridges.insert st.id b' ∧ b'.stream = st ∧ b'.phase = .active := by
      rw [← hs']; exact ⟨_, rfl, rfl, rfl⟩
    rw [h1] at e3
    refine h.put hk hm0 e1 (fun x _ => told_quiet rfl x) e3 e2 ⟨st.phase, [], ?_, new_life (by rw [e4]; exact hlife) e5, by simp, ?_⟩
    · rw [e1, told_append, h0, told_quiet rfl]; rfl
    · intro kind hkd
      rw [e2, hkn] at hkd; cases hkd
  | launch op id peer deadline kind hh' hl hs _ =>
    obtain ⟨h1, _⟩ := started_facts hs
    have hto : toldOf op = none := by cases hs <;> rfl
    rw [launch_eq] at hm0 ⊢
    refine h.quiet hk hm0 [(none, op)] rfl (told_quiet hto) rfl ?_
    intro x b0 hx k hk'
    dsimp only at hk'
    rw [get?_insert, if_neg] at hk'
    · exact hk'
    · intro e
      refine hi.fresh (List.mem_append_right _ ?_)
      rw [← h1, e]
      exact mem_keys.2 ⟨b0, mem_of_get? hx⟩
  | inert peer kind now hn =>
    have k1 : (a.ep.startPushPullDirect cfg env peer kind now).2.1 = a.ep.net.nextStreamId := by
      unfold Ep.startPushPullDirect at hn ⊢
      dsimp only at hn ⊢
      split at hn
      · next hr => rw [if_pos hr]
      · cases hn
    rw [k1] at hm0 ⊢
    generalize hid : a.ep.net.nextStreamId = id at hm0 ⊢
    have hnid : id ∉ a.bridges.keys := by
      rw [← hid]; exact fun hc => hi.fresh (List.mem_append_right _ hc)
    have e1 : ∀ y, told [((none : Option Nat), (Ep.Op.startPushPullDirect peer kind now : Ep.Op I A))] y = [] := fun y => told_quiet rfl y
    refine h.ended hk hm0 (id := id)
      (l := [(none, .startPushPullDirect peer kind now), (some id, .external (some ⟨id, peer, false, .pushPull⟩))])
      ?_ rfl hnid (by rw [← hid]; exact h.unborn hi) ?_ ?_ (fun _ _ _ h => h)
    · show a.calls ++ [_] ++ [_] = _
      rw [List.append_assoc]; rfl
    · intro x hx
      show told ([_] ++ [_]) x = []
      rw [told_append, e1, told_other hx]; rfl
    · refine .inr ⟨?_, peer, .pushPull, ?_⟩
      · show id ∈ (a.calls ++ [_] ++ [_]).filterMap reportedId
        rw [List.filterMap_append]
        exact List.mem_append_right _ List.mem_cons_self
      · show told ([_] ++ [_]) id = _
        rw [told_append, e1, told_this rfl]; rfl
  | burn pid peer seq deadline hn => exact one none _ hm0 rfl rfl rfl rfl
  | reap id ch b0 lost hb ht' hev hl =>
    have hrun := h.under id b0 hb
    obtain ⟨r1, r2, r3, r4, r5, r6, _⟩ := preReap_rest (X := X) a id b0 ch lost
    have hap := reapBridge_apart (cfg := cfg) (env := env) a id b0 ch lost
    have hent : (a.reapBridge cfg env id b0 ch lost).entries = a.entries := by
      unfold entries waiting
      rw [hap.dials, hap.parked, hap.hand, hap.limbo]
    have hnd := hi.bridges_nodup
    have hall := hi.move hk hm0
    obtain ⟨l, g1, g2, g3, g4, g5⟩ : ∃ l, (a.reapBridge cfg env id b0 ch lost).calls = a.calls ++ l ∧
        (a.reapBridge cfg env id b0 ch lost).bridges = (a.preReap id b0 ch lost).bridges ∧
        (∀ x, id ≠ x → told l x = [] ∧ (a.reapBridge cfg env id b0 ch lost).kinds.get? x = a.kinds.get? x) ∧
        (l.filterMap reportedId = [id] ∨ l = [] ∧ (a.reapBridge cfg env id b0 ch lost).ep = a.ep) ∧
        ∃ r : Option (Completion A), told l id = r.toList.map .report ∧
          ∀ c, r = some c → c.exchange = id ∧ c.ok = !b0.isFailed ∧ a.kinds.get? id = some c.kind := by
      rw [reapBridge_pre]
      rcases complete_cases (cfg := cfg) (env := env) (a.preReap id b0 ch lost) id (!b0.isFailed) with
        ⟨_, h2⟩ | ⟨k, _, _, h2⟩ | ⟨k, p, h1, _, h2⟩ <;> rw [h2]
      · exact ⟨[], by rw [r4, List.append_nil], rfl, fun x _ => ⟨rfl, by rw [r1]⟩, .inr ⟨rfl, r3⟩, none, rfl, by (intro c hc; cases hc)⟩
      · refine ⟨[], by dsimp only; rw [r4, List.append_nil], rfl, fun x hx => ⟨rfl, ?_⟩, .inr ⟨rfl, r3⟩, none, rfl, by (intro c hc; cases hc)⟩
        dsimp only
        rw [r1, get?_erase, if_neg hx]
      · refine ⟨[(some id, .external (some ⟨id, p, !b0.isFailed, k⟩))], by dsimp only; rw [r4], rfl, fun x hx => ⟨told_other hx, ?_⟩,
          .inl rfl, some ⟨id, p, !b0.isFailed, k⟩, told_this rfl, ?_⟩
        · dsimp only
          rw [r1, get?_erase, if_neg hx]
        · intro c hc
          injection hc with hc
          subst hc
          exact ⟨rfl, rfl, by rw [← r1]; exact h1⟩
    have htb := table_move hi.table hm0
    generalize a.reapBridge cfg env id b0 ch lost = s' at *
    have hkeys : s'.bridges.keys = (a.bridges.erase id).keys := by rw [g2, r5]
    have ht : ∀ x, id ≠ x → told s'.calls x = told a.calls x := fun x hx => by
      rw [g1, told_append, (g3 x hx).1, List.append_nil]
    refine ⟨?_, ?_, ?_⟩
    · intro x hx
      by_cases e : id = x
      · subst e
        rcases g4 with g4 | ⟨rfl, g4⟩
        · left
          rw [done_more g1, g4]
          exact List.mem_append_right _ List.mem_cons_self
        · right; right
          refine ⟨by rw [g4]; exact hi.reach, htb, ?_, ?_⟩
          · rw [g4]
            refine hi.ids.perm ?_
            have hd : s'.done = a.done := by rw [done_more g1]; exact List.append_nil _
            rw [hd, List.append_assoc]
            refine List.Perm.trans ?_ (show (a.done ++ a.held).Perm ([] ++ a.done ++ a.held) from .refl _)
            unfold held
            rw [hent, hkeys]
            have e0 : ([id] ++ (a.done ++ (a.entries.map QDial.id ++ (a.bridges.erase id).keys))).Perm
                (a.done ++ id :: (a.entries.map QDial.id ++ (a.bridges.erase id).keys)) :=
              (List.perm_middle (a := id) (l₁ := a.done) (l₂ := a.entries.map QDial.id ++ (a.bridges.erase id).keys)).symm
            have e1 : (id :: (a.entries.map QDial.id ++ (a.bridges.erase id).keys)).Perm
                (a.entries.map QDial.id ++ id :: (a.bridges.erase id).keys) := List.perm_middle.symm
            exact e0.trans (List.Perm.append_left _ (e1.trans ((keys_drop hnd hb).symm.append_left _)))
          · rw [hent, g4]; exact hi.agree
      · rw [ht x e] at hx
        rcases h.spent x hx with g | g | g
        · left; rw [done_more g1]; exact List.mem_append_left _ g
        · right; left
          rw [hkeys]
          rcases List.mem_cons.1 ((keys_drop hnd hb).subset g) with rfl | g
          · exact absurd rfl e
          · exact g
        · right; right; exact g.move hk hm0
    · intro x hx
      by_cases e : id = x
      · subst e
        obtain ⟨r, q1, q2⟩ := g5
        exact hrun.over ht' hev r q2 (by rw [g1, told_append, q1])
      · rw [ht x e]
        refine h.over x ?_
        obtain ⟨k, hkx⟩ := r6 x
        rw [g2, hkx, get?_erase, if_neg e] at hx
        cases hg : a.bridges.get? x with
        | none => rfl
        | some _ => rw [hg] at hx; cases hx
    · intro x b1 hx
      obtain ⟨k, hkx⟩ := r6 x
      rw [g2, hkx, get?_erase] at hx
      split at hx
      · cases hx
      · next e =>
        cases hg : a.bridges.get? x with
        | none => rw [hg] at hx; cases hx
        | some b2 =>
          rw [hg] at hx
          injection hx with hx
          subst hx
          obtain ⟨p0, ps, h1, h2, h3, h4⟩ := h.under x b2 hg
          exact ⟨p0, ps, by rw [ht x e]; exact h1, ⟨h2.life, h2.recv⟩, h3, by rw [(g3 x e).2]; exact h4⟩
  | _ => exact z hm0 rfl rfl rfl

/-- The invariant with the others. -/
def FullInv (cfg : Cfg I A) (env : Env I A) (X : QCfg) (s : Quic I Q) : Prop := NodeInv cfg env X s ∧ LifeInv cfg env X s

theorem FullInv.move (hS : Q.Sound) {a b : Quic I Q} (h : FullInv cfg env X a) (hm : Move cfg env X T a b) :
    FullInv cfg env X b := ⟨h.1.move hS hm, h.2.move h.1.ids h.1.books h.1.held hm⟩

/-- Only the queue of received datagrams changed. -/
theorem LifeInv.queue {s s' : Quic I Q} (h : LifeInv cfg env X s)
    (hs : ∃ ring ingress perPeer, s' = { s with ring := ring, ingress := ingress, perPeer := perPeer }) :
    LifeInv cfg env X s' := by
  obtain ⟨ring, ingress, perPeer, rfl⟩ := hs
  refine ⟨fun x hx => ?_, h.over, h.under⟩
  refine (h.spent x hx).imp (fun g => g) (Or.imp (fun g => g) (fun g => ?_))
  exact ⟨g.reach, g.table, g.ids, g.agree⟩

theorem life_run (hS : Q.Sound) {t0 : Nat} {e0 : Ep I A} (hnew : Ep.tryNew cfg env t0 = .ok e0) (q : Q.E) (cmp : CmpOptions)
    (ops : List (QOp I A)) : LifeInv cfg env X ((Quic.new e0 q cmp : Quic I Q).run cfg env X T ops) := by
  have h0 : FullInv cfg env X (Quic.new e0 q cmp : Quic I Q) := by
    refine ⟨.new hnew q cmp, fun x hx => absurd rfl hx, fun x _ => ⟨none, none, rfl, by (intro c hc; cases hc)⟩, ?_⟩
    intro id b hb; cases hb
  refine (run_inv (P := FullInv cfg env X) hS (fun _ _ h hm => h.move hS hm) (fun s h => ⟨h.1.pull, h.2.queue ?_⟩)
    (fun s ring h => ⟨h.1.wipe ring, h.2.queue ⟨_, _, _, rfl⟩⟩) ops (new_idle e0 q cmp) h0).1.2
  unfold pollIngress
  split <;> exact ⟨_, _, _, rfl⟩

end Verif.Quic
