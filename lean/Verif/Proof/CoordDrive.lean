import Verif.Proof.BridgeWire
import Verif.Proof.CoordMute
import Verif.Proof.CoordLife
/-
What the driver is handed for an exchange: a well-formed course, and the bytes of the header and of one sealed unit.
-/
namespace Verif
open Spec
namespace Coord
variable {I A : Type} [DecidableEq I] [DecidableEq A] {cfg : Cfg I A} {env : Env I A} {X : XCfg} {T : TEnv} {N : Nat → Bridge I A → Prop} {L : Prop}

/-! ### Lists of emissions -/

omit [DecidableEq A] in
theorem written_append (l l' : List (XEmit A)) : written (l ++ l') = written l ++ written l' := by
  induction l with
  | nil => rfl
  | cons a l ih => cases a <;> simp [written, ih]

omit [DecidableEq A] in
theorem downs_append (l l' : List (XEmit A)) : downs (l ++ l') = downs l ++ downs l' := by
  induction l with
  | nil => rfl
  | cons a l ih => cases a <;> simp [downs, ih]

omit [DecidableEq A] in
theorem dialled_append (l l' : List (XEmit A)) : dialled (l ++ l') = dialled l + dialled l' := by
  induction l with
  | nil => simp [dialled]
  | cons a l ih => cases a <;> simp [dialled, ih] <;> omega

omit [DecidableEq A] in
theorem downs_map (l : List Teardown) : downs (l.map (XEmit.down (A := A))) = l := by
  induction l with
  | nil => rfl
  | cons a l ih => simp [downs, ih]

omit [DecidableEq A] in
theorem dialled_map (l : List Teardown) : dialled (l.map (XEmit.down (A := A))) = 0 := by
  induction l with
  | nil => rfl
  | cons a l ih => simp [dialled, ih]

/-- The bytes that wait for the driver. -/
def flat (l : List (A × Bytes)) : Bytes := (l.map Prod.snd).flatten

omit [DecidableEq A] in
theorem flat_piece (l : List (A × Bytes)) (peer : A) (b : Bytes) : flat (l ++ piece peer b) = flat l ++ b := by
  unfold flat piece
  split
  · next h => simp [h]
  · simp

omit [DecidableEq A] in
theorem piece_nil (peer : A) : piece peer [] = [] := rfl

/-! ### One bridge -/

/-- What is known of a held bridge. -/
structure Kept (cfg : Cfg I A) (ring : Option Keyring) (x : Nat) (m : XMeta A) (b : Bridge I A) : Prop where
  shape : BShape cfg ring x m b
  life : b.stream ≠ none → ∃ p0 n, Bridge.BLife p0 n b
  bare : Bare b

omit [DecidableEq A] in
theorem Kept.able {ring : Option Keyring} {x : Nat} {m : XMeta A} {b : Bridge I A} (h : Kept cfg ring x m b) :
    Bridge.Able ring b where
  alive := fun s hs hf => by
    obtain ⟨p0, n, hl⟩ := h.life (by rw [hs]; simp)
    exact ⟨p0, n, hl.live hf s hs⟩
  opened := h.shape.valid
  ring := h.shape.ring
  began := fun hfin hf hn => by
    have := (h.bare hn hf).2
    rw [hfin] at this; cases this

/-- How a bridge may go on. -/
structure Go (B : Backends) (M : Bytes → Prop) (In : Prop) (label : Option Bytes) (ring : Option Keyring) (b b' : Bridge I A) : Prop where
  kin : Bridge.Kin b b'
  wire : ∀ w, Bridge.Wire B M In label ring w b → Bridge.Wire B M In label ring w b'
  still : ∀ w, Bridge.Wire B M In label ring w b → Bridge.Shut b → Bridge.Still b b'
  said : Bridge.Said b → Bridge.Said b'

omit [DecidableEq I] [DecidableEq A] in
theorem Go.refl {B : Backends} {M : Bytes → Prop} {In : Prop} {label : Option Bytes} {ring : Option Keyring} (b : Bridge I A) : Go B M In label ring b b :=
  ⟨.refl b, fun _ h => h, fun _ _ _ h => h, id⟩

omit [DecidableEq I] [DecidableEq A] in
theorem Go.trans {B : Backends} {M : Bytes → Prop} {In : Prop} {label : Option Bytes} {ring : Option Keyring} {a b c : Bridge I A}
    (h : Go B M In label ring a b) (g : Go B M In label ring b c) : Go B M In label ring a c :=
  ⟨h.kin.trans g.kin, fun w hw => g.wire w (h.wire w hw),
    fun w hw hs ho => g.still w (h.wire w hw) (hs.elim (fun e => .inl (h.kin.fin e)) (fun e => .inr (h.kin.failed e))) (h.still w hw hs ho),
    fun hs => g.said (h.said hs)⟩

omit [DecidableEq I] [DecidableEq A] in
theorem Go.fail {B : Backends} {M : Bytes → Prop} {In : Prop} {label : Option Bytes} {ring : Option Keyring} (b : Bridge I A) (r : LinkFail) :
    Go B M In label ring b (b.fail r) :=
  ⟨.fail b r, fun _ h => h.fail r, fun _ _ _ => Bridge.fail_still b r, fun _ => .dead (Bridge.fail_failed b r)⟩

theorem Kept.feed {ring : Option Keyring} {x : Nat} {m : XMeta A} {b : Bridge I A} (h : Kept cfg ring x m b) (d : Bytes)
    (now : Nat) : Kept cfg ring x m (b.feed env.CI env.CA T d now) where
  shape := h.shape.kin (.feed b d now)
  life := fun hn => by
    obtain ⟨p0, n, hl⟩ := h.life (fun e => hn ((Bridge.Kin.feed (CI := env.CI) (CA := env.CA) (T := T) b d now).nos.2 e))
    exact ⟨p0, n, Bridge.feed_life hl _ _⟩
  bare := h.bare.feed _ _

theorem Kept.goFeed {ring : Option Keyring} {x : Nat} {m : XMeta A} {b : Bridge I A} (h : Kept cfg ring x m b) (d : Bytes)
    (now : Nat) (label : Option Bytes) (o : Bool) : Go T.B (Spoken cfg env o) (o = false) label ring b (b.feed env.CI env.CA T d now) where
  kin := .feed b d now
  wire := fun _ hw => (hw.feed (fun ho _ _ hk => .ack hk ho) h.able (fun hn hf => (h.bare hn hf).1) d now).1
  still := fun _ hw => (hw.feed (fun ho _ _ hk => .ack hk ho) h.able (fun hn hf => (h.bare hn hf).1) d now).2
  said := fun hs => hs.feed d now

theorem Kept.goFeedAll {ring : Option Keyring} {x : Nat} {m : XMeta A} {b : Bridge I A} (h : Kept cfg ring x m b)
    (bytes : Bytes) (eof : Bool) (now : Nat) (label : Option Bytes) (o : Bool) :
    Go T.B (Spoken cfg env o) (o = false) label ring b (feedAll env T bytes eof now b) := by
  unfold feedAll
  by_cases hb : bytes = [] <;> cases eof <;> simp only [hb, if_true, if_false, Bool.false_eq_true]
  · exact .refl b
  · exact h.goFeed _ _ _ _
  · exact h.goFeed _ _ _ _
  · exact (h.goFeed _ _ _ _).trans ((h.feed _ _).goFeed _ _ _ _)

theorem Kept.goStep {ring : Option Keyring} {x : Nat} {m : XMeta A} {b b' : Bridge I A} (h : Kept cfg ring x m b)
    (hs : BStep env T b b') (label : Option Bytes) (o : Bool) : Go T.B (Spoken cfg env o) (o = false) label ring b b' := by
  refine ⟨Kin.bstep hs, ?_, ?_, ?_⟩ <;> cases hs with
  | replay now =>
    first
      | exact fun _ hw => (hw.replay (fun ho _ _ hk => .ack hk ho) h.able now).1
      | exact fun _ hw => (hw.replay (fun ho _ _ hk => .ack hk ho) h.able now).2
      | exact fun hs => hs.replay now
  | pumpOut now =>
    have hp := Bridge.pumpOut_cases (T := T) b now
    first
      | exact fun _ hw => (hw.pumpOut h.able hp).1
      | exact fun _ hw => (hw.pumpOut h.able hp).2
      | exact fun hs => hs.pumpOut hp

theorem Kept.goCommit {ring : Option Keyring} {x : Nat} {m : XMeta A} {b : Bridge I A} (h : Kept cfg ring x m b)
    {cmp : CmpOptions} {now : Nat} {e : Ep I A} {s : Stream I A} {ev : PayloadEvent I A} {rest : List (PayloadEvent I A)}
    {r : Ep I A × Bridge I A} (hs : b.stream = some s) (he : s.endpointEvents = ev :: rest)
    (hc : Bridge.CommitOne cfg env T cmp now e b s ev rest r) (label : Option Bytes) (o : Bool) : Go T.B (Spoken cfg env o) (o = false) label ring b r.2 := by
  obtain ⟨p0, n, hl⟩ := h.life (by rw [hs]; simp)
  exact ⟨.commitOne hs hc, fun _ hw => (hw.commitOne (fun ho _ _ _ _ _ hk => .answer hk ho) h.able hl hs he hc).1, fun _ hw => (hw.commitOne (fun ho _ _ _ _ _ hk => .answer hk ho) h.able hl hs he hc).2,
    fun h => h.commitOne hs hc⟩

theorem opened_phase {e : Ep I A} {op : Ep.Op I A} {s : Stream I A} (h : (e.step cfg env op).2 = .stream (some s)) :
    s.phase ≠ .inSending := by
  cases op <;> simp only [Ep.step] at h <;> try (cases h; done)
  case acceptStream src now =>
    unfold Ep.acceptStream at h
    split at h
    · simp at h
    · simp only [Ep.Out.stream.injEq, Option.some.injEq] at h
      subst h
      simp [Stream.fresh]
  case dialSucceeded id now =>
    unfold Ep.dialSucceeded at h
    split at h
    · simp at h
    · simp only [] at h
      split at h
      · simp at h
      · split at h
        · simp at h
        · simp only [Ep.Out.stream.injEq, Option.some.injEq] at h
          subst h
          simp [Stream.fresh]
  all_goals (split at h <;> cases h)

theorem spoken_any {B : Backends} {o : Bool} {r : Option Keyring} {u : Bytes} (h : SealedUnit B (Spoken cfg env o) r u) :
    SealedUnit B (Spoken cfg env false) r u := by
  obtain ⟨c, m, n, f, h1, h2, h3⟩ := h
  refine ⟨c, m, n, f, ?_, h2, h3⟩
  cases h1 with
  | request a b => exact .request a b
  | answer a _ => exact .answer a rfl
  | ack a _ => exact .ack a rfl

/-- A stream an endpoint opened holds its request and nothing else. -/
theorem due_opened {B : Backends} {e : Ep I A} {op : Ep.Op I A} {s : Stream I A} {M : Bytes → Prop} {In : Prop}
    (h : (e.step cfg env op).2 = .stream (some s)) (hI : s.phase = .inAwaiting → In) (hM : ∀ m, s.outputBuf = [m] → M m) : Bridge.Due B M In false s := by
  have hk : s.outputBuf = [] ∨ ∃ k m, s.phase = .outSending k ∧ s.outputBuf = [m] := by
    cases op <;> simp only [Ep.step] at h <;> try (cases h; done)
    case acceptStream src now =>
      unfold Ep.acceptStream at h
      split at h
      · simp at h
      · simp only [Ep.Out.stream.injEq, Option.some.injEq] at h
        subst h
        exact .inl rfl
    case dialSucceeded id now =>
      unfold Ep.dialSucceeded at h
      split at h
      · simp at h
      · simp only [] at h
        split at h
        · simp at h
        · split at h
          · simp at h
          · simp only [Ep.Out.stream.injEq, Option.some.injEq] at h
            subst h
            unfold Stream.fresh
            simp only []
            split
            · exact .inl rfl
            · exact .inr ⟨_, _, rfl, rfl⟩
    all_goals (split at h <;> cases h)
  refine ⟨fun hp => ?_, fun hp => ?_, fun _ => rfl, ?_⟩
  · rcases hk with hk | ⟨k, m, hk, _⟩
    · exact hk
    · rw [hk] at hp; cases hp
  · exact hp.elim hI (fun hp => absurd hp (opened_phase h))
  · rcases hk with hk | ⟨k, m, _, hk⟩
    · exact .inl hk
    · exact .inr ⟨m, hk, fun _ => hM m hk, fun hx => by cases hx⟩

/-! ### One exchange -/

/-- The requests to take a connection down: at most a half-close, then a close or one or two aborts. -/
def Course (half full : List Teardown) : Prop :=
  (half = [] ∨ half = [.shutdown]) ∧ (full = [] ∨ full = [.close] ∨ full = [.abort] ∨ full = [.abort, .abort])

/-- The invariant: `E` is what the driver was handed for the exchange so far. -/
structure VDrive (cfg : Cfg I A) (env : Env I A) (T : TEnv) (label : Option Bytes) (E : List (XEmit A)) (ring : Option Keyring) (v : XV I A) : Prop where
  unborn : v.born = false → E = []
  tear : ∃ half full, downs E ++ v.down = half ++ full ∧ Course half full ∧
    (∀ b m, v.br = some b → v.info = some m → (m.finEmitted = false → half = []) ∧
      (full = [] ∨ (full = [.abort] ∧ b.isFailed = true))) ∧
    (v.born = true → v.br = none → full ≠ [])
  shut : ∀ b m, v.br = some b → v.info = some m → m.finEmitted = true → Bridge.Shut b
  quiet : downs E ≠ [] → v.out = [] ∧ v.conn = [] ∧ ∀ b, v.br = some b → Bridge.Shut b ∧ b.records.outbound = []
  tail : ∃ pre, E = pre ++ (downs E).map .down ∧ downs pre = []
  conn : dialled E + v.conn.length ≤ 1
  wire : ∀ b m, v.br = some b → v.info = some m →
    Bridge.Wire T.B (Spoken cfg env m.outbound) (m.outbound = false) label ring (written E ++ flat v.out) b
  said : ∀ b m, v.br = some b → v.info = some m → m.outbound = true → Bridge.Said b
  bytes : ∃ r u, (u = [] ∨ SealedUnit T.B (Spoken cfg env false) r u) ∧ written E ++ flat v.out <+: header label ++ u ∧ (v.out ≠ [] → r = ring)

/-- The bridge goes on, the rest stays. -/
theorem VDrive.go {label : Option Bytes} {E : List (XEmit A)} {ring : Option Keyring} {v : XV I A}
    (h : VDrive cfg env T label E ring v) (v' : XV I A) {b b' : Bridge I A} (hb : v.br = some b) (e1 : v'.born = v.born)
    (e2 : v'.br = some b') (e3 : v'.info = v.info) (e4 : v'.out = v.out) (e5 : v'.conn = v.conn)
    (e6 : v'.down = v.down) {m0 : XMeta A} (hm0 : v.info = some m0) (g : ∀ o, Go T.B (Spoken cfg env o) (o = false) label ring b b') : VDrive cfg env T label E ring v' where
  unborn := by rw [e1]; exact h.unborn
  tear := by
    obtain ⟨half, full, h1, h2, h3, h4⟩ := h.tear
    refine ⟨half, full, by rw [e6]; exact h1, h2, fun b2 m hb2 hm => ?_, fun _ hn => by rw [e2] at hn; cases hn⟩
    rw [e2] at hb2; cases hb2
    rw [e3] at hm
    obtain ⟨h5, h6⟩ := h3 b m hb hm
    exact ⟨h5, h6.imp id (fun h => ⟨h.1, (g false).kin.failed h.2⟩)⟩
  shut := fun b2 m hb2 hm hf => by
    rw [e2] at hb2; cases hb2
    rw [e3] at hm
    exact (h.shut b m hb hm hf).imp (g false).kin.fin (g false).kin.failed
  quiet := fun hd => by
    obtain ⟨h1, h2, h3⟩ := h.quiet hd
    refine ⟨by rw [e4]; exact h1, by rw [e5]; exact h2, fun b2 hb2 => ?_⟩
    rw [e2] at hb2; cases hb2
    obtain ⟨h4, h5⟩ := h3 b hb
    exact ⟨h4.imp (g false).kin.fin (g false).kin.failed, (g _).still _ (h.wire b m0 hb hm0) h4 h5⟩
  tail := h.tail
  conn := by rw [e5]; exact h.conn
  wire := fun b2 m hb2 hm => by
    rw [e2] at hb2; cases hb2
    rw [e3] at hm
    rw [e4]
    exact (g _).wire _ (h.wire b m hb hm)
  said := fun b2 m hb2 hm ho => by
    rw [e2] at hb2; cases hb2
    rw [e3] at hm
    exact (g false).said (h.said b m hb hm ho)
  bytes := by rw [e4]; exact h.bytes

/-- Only the calls for the exchange change. -/
theorem VDrive.same {label : Option Bytes} {E : List (XEmit A)} {ring : Option Keyring} {v : XV I A}
    (h : VDrive cfg env T label E ring v) (v' : XV I A) (e1 : v'.born = v.born)
    (e2 : v'.br = v.br) (e3 : v'.info = v.info) (e4 : v'.out = v.out) (e5 : v'.conn = v.conn)
    (e6 : v'.down = v.down) : VDrive cfg env T label E ring v' where
  unborn := by rw [e1]; exact h.unborn
  tear := by rw [e1, e2, e3, e6]; exact h.tear
  shut := by rw [e2, e3]; exact h.shut
  quiet := by rw [e2, e4, e5]; exact h.quiet
  tail := h.tail
  conn := by rw [e5]; exact h.conn
  wire := by rw [e2, e3, e4]; exact h.wire
  said := by rw [e2, e3]; exact h.said
  bytes := by rw [e4]; exact h.bytes

theorem kept {x : Nat} {ring : Option Keyring} {v : XV I A} (hok : VOk cfg x ring v) (hl : VLife x v) {b : Bridge I A}
    {m : XMeta A} (hb : v.br = some b) (hm : v.info = some m) : Kept cfg ring x m b := by
  have h2 := hl.2
  rw [hb] at h2
  refine ⟨hok.br b m hb hm, fun hn => ?_, h2.2⟩
  obtain ⟨p0, ps, _, h, _⟩ := h2.1.2 hn
  exact ⟨p0, _, h⟩

omit [DecidableEq I] [DecidableEq A] in
theorem info_of {x : Nat} {ring : Option Keyring} {v : XV I A} (hok : VOk cfg x ring v) {b : Bridge I A}
    (hb : v.br = some b) : ∃ m, v.info = some m := by
  cases hm : v.info with
  | some m => exact ⟨m, rfl⟩
  | none => rw [hok.keys.2 hm] at hb; cases hb

omit [DecidableEq I] [DecidableEq A] in
theorem born_of {x : Nat} {ring : Option Keyring} {v : XV I A} (hok : VOk cfg x ring v) {b : Bridge I A}
    (hb : v.br = some b) : v.born = true := by
  cases hn : v.born with
  | true => rfl
  | false => rw [(hok.born hn).1] at hb; cases hb

/-- The exchange is gone, nothing is left to write. -/
theorem VDrive.gone {label : Option Bytes} {E : List (XEmit A)} {ring : Option Keyring} {v : XV I A}
    (h : VDrive cfg env T label E ring v) (v' : XV I A) (hb : v'.born = true) (e2 : v'.br = none) (e4 : v'.out = [])
    (e5 : v'.conn = v.conn ∨ v'.conn = [])
    (ht : ∃ half full, downs E ++ v'.down = half ++ full ∧ Course half full ∧ full ≠ []) : VDrive cfg env T label E ring v' where
  unborn := fun hn => by rw [hb] at hn; cases hn
  tear := by
    obtain ⟨half, full, h1, h2, h3⟩ := ht
    exact ⟨half, full, h1, h2, fun b m h => (by rw [e2] at h; cases h), fun _ _ => h3⟩
  shut := fun b m h => by rw [e2] at h; cases h
  quiet := fun hd => ⟨e4, e5.elim (fun e => by rw [e]; exact (h.quiet hd).2.1) id, fun b h => (by rw [e2] at h; cases h)⟩
  tail := h.tail
  conn := by
    have := h.conn
    rcases e5 with e | e <;> rw [e]
    · exact this
    · simp only [List.length_nil]; omega
  wire := fun b _ h => by rw [e2] at h; cases h
  said := fun b m h => by rw [e2] at h; cases h
  bytes := by
    obtain ⟨r, u, h1, h2, _⟩ := h.bytes
    refine ⟨r, u, h1, ?_, fun hn => absurd e4 hn⟩
    rw [e4]
    refine List.IsPrefix.trans ?_ h2
    simp [flat]

theorem VDrive.step {label : Option Bytes} {E : List (XEmit A)} {x : Nat} {ring : Option Keyring} {v v' : XV I A}
    (hX : X.label = label) (hok : VOk cfg x ring v) (hl : VLife x v) (h : VDrive cfg env T label E ring v)
    (hs : VStep cfg env X T N L Meant x ring v v') : VDrive cfg env T label E ring v' := by
  cases hs with
  | refl => exact h
  | call => exact h.same _ rfl rfl rfl rfl rfl rfl
  | @bridge b b' hb hs =>
    obtain ⟨m, hm⟩ := info_of hok hb
    exact h.go _ hb rfl rfl rfl rfl rfl rfl hm ((kept hok hl hb hm).goStep hs _)
  | @commit b s ev rest r cmp e now hb hs he hlate hc =>
    obtain ⟨m, hm⟩ := info_of hok hb
    exact h.go _ hb rfl rfl rfl rfl rfl rfl hm ((kept hok hl hb hm).goCommit hs he hc _)
  | @shutdown b m hb ht hf hi hfe =>
    have hnf : b.isFailed = false := by
      cases hf : b.isFailed with
      | false => rfl
      | true => rw [Bridge.terminal_of_failed hf] at ht; cases ht
    obtain ⟨half, full, h1, h2, h3, h4⟩ := h.tear
    obtain ⟨g1, g2⟩ := h3 b m hb hi
    have e1 := g1 hfe
    have e2 : full = [] := g2.resolve_right (fun h => by rw [hnf] at h; cases h.2)
    subst e1 e2
    refine ⟨h.unborn, ⟨[.shutdown], [], ?_, ⟨.inr rfl, .inl rfl⟩, fun b2 m2 _ hm2 => ?_, fun _ hn => ?_⟩, fun b2 m2 hb2 _ _ => ?_,
      h.quiet, h.tail, h.conn, fun b2 m2 hb2 hm2 => (by cases hm2; exact h.wire b2 m hb2 hi), fun b2 m2 hb2 hm2 ho => ?_, h.bytes⟩
    · show downs E ++ (v.down ++ [.shutdown]) = _
      rw [← List.append_assoc, h1]; rfl
    · cases hm2; exact ⟨fun h => (by cases h), .inl rfl⟩
    · have hn : v.br = none := hn
      rw [hb] at hn; cases hn
    · have hb2 : v.br = some b2 := hb2
      rw [hb] at hb2; cases hb2
      exact .inl hf
    · cases hm2; exact h.said b2 m hb2 hi ho
  | @collect b m hb hi =>
    have hw := h.wire b m hb hi
    have e : flat (v.out ++ piece m.peer b.transmit.2) = flat v.out ++ b.records.outbound := flat_piece _ _ _
    refine ⟨h.unborn, ?_, ?_, ?_, h.tail, h.conn, ?_, ?_, ?_⟩
    · obtain ⟨half, full, h1, h2, h3, h4⟩ := h.tear
      refine ⟨half, full, h1, h2, fun b2 m2 hb2 hm2 => ?_, fun _ hn => by cases hn⟩
      cases hb2; exact h3 b m2 hb hm2
    · intro b2 m2 hb2 hm2 hf
      cases hb2; exact h.shut b m2 hb hm2 hf
    · intro hd
      obtain ⟨h1, h2, h3⟩ := h.quiet hd
      obtain ⟨h4, h5⟩ := h3 b hb
      refine ⟨?_, h2, fun b2 hb2 => ?_⟩
      · show v.out ++ piece m.peer b.records.outbound = []
        rw [h1, h5]; rfl
      · cases hb2; exact ⟨h4, rfl⟩
    · intro b2 m2 hb2 hm2
      cases hb2
      have hm2 : v.info = some m2 := hm2
      rw [hi] at hm2
      cases hm2
      show Bridge.Wire T.B (Spoken cfg env m.outbound) (m.outbound = false) label ring (written E ++ flat (v.out ++ piece m.peer b.transmit.2)) _
      rw [e, ← List.append_assoc]
      exact hw.transmit
    · intro b2 m2 hb2 hm2 ho
      cases hb2
      exact h.said b m2 hb hm2 ho
    · show ∃ r u, _ ∧ written E ++ flat (v.out ++ piece m.peer b.transmit.2) <+: _ ∧ _
      rw [e, ← List.append_assoc]
      cases hf : b.isFailed with
      | true =>
        have h0 : b.records.outbound = [] := hw.dead hf
        obtain ⟨r, u, h1, h2, h3⟩ := h.bytes
        refine ⟨r, u, h1, by rw [h0, List.append_nil]; exact h2, fun hn => h3 ?_⟩
        intro hn2
        refine hn ?_
        show v.out ++ piece m.peer b.records.outbound = []
        rw [hn2, h0]; rfl
      | false =>
        cases hs : b.sentAny with
        | false =>
          refine ⟨ring, [], .inl rfl, ?_, fun _ => rfl⟩
          rw [hw.fresh hf hs, List.append_nil]
          exact hw.pipe.head_prefix
        | true =>
          obtain ⟨u, h1, h2⟩ := hw.full hf hs
          exact ⟨ring, u, .inr (spoken_any h1), by rw [h2], fun _ => rfl⟩
  | @reapFailed b m hb hi hfl he =>
    obtain ⟨half, full, h1, h2, h3, h4⟩ := h.tear
    obtain ⟨_, g2⟩ := h3 b m hb hi
    refine h.gone _ (show v.born = true from born_of hok hb) rfl rfl (.inl rfl) ⟨half, full ++ [.abort], ?_, ⟨h2.1, ?_⟩, by simp⟩
    · show downs E ++ (v.down ++ [.abort]) = _
      rw [← List.append_assoc, h1, List.append_assoc]
    · rcases g2 with g | ⟨g, _⟩ <;> rw [g] <;> simp
  | @reapClosed b m hb hi hph he =>
    have hnf : b.isFailed = false := by unfold Bridge.isFailed; rw [hph]
    have hw := h.wire b m hb hi
    have e : flat (v.out ++ piece m.peer b.transmit.2) = flat v.out ++ b.records.outbound := flat_piece _ _ _
    obtain ⟨half, full, h1, h2, h3, h4⟩ := h.tear
    obtain ⟨_, g2⟩ := h3 b m hb hi
    have e2 : full = [] := g2.resolve_right (fun h => by rw [hnf] at h; cases h.2)
    subst e2
    refine ⟨h.unborn, ⟨half, [.close], ?_, ⟨h2.1, by simp⟩, fun b2 m2 hb2 => (by cases hb2), fun _ _ => (by simp)⟩, fun b2 m2 hb2 => (by cases hb2), fun hd => ?_,
      h.tail, h.conn, fun b2 m2 hb2 => (by cases hb2), fun b2 m2 hb2 => (by cases hb2), ?_⟩
    · show downs E ++ (v.down ++ [.close]) = _
      rw [← List.append_assoc, h1, List.append_nil]
    · obtain ⟨k1, k2, k3⟩ := h.quiet hd
      refine ⟨?_, k2, fun b2 hb2 => (by cases hb2)⟩
      show v.out ++ piece m.peer b.records.outbound = []
      rw [k1, (k3 b hb).2]; rfl
    · show ∃ r u, _ ∧ written E ++ flat (v.out ++ piece m.peer b.transmit.2) <+: _ ∧ _
      rw [e, ← List.append_assoc]
      cases hs : b.sentAny with
      | false =>
        refine ⟨ring, [], .inl rfl, ?_, fun _ => rfl⟩
        rw [hw.fresh hnf hs, List.append_nil]
        exact hw.pipe.head_prefix
      | true =>
        obtain ⟨u, h1, h2⟩ := hw.full hnf hs
        exact ⟨ring, u, .inr (spoken_any h1), by rw [h2], fun _ => rfl⟩
  | dial peer sid deadline cmp kind hb =>
    obtain ⟨k1, k2, k3, k4, k5⟩ := hok.born hb
    have hE := h.unborn hb
    subst hE
    obtain ⟨l1, l2⟩ := LOk.newDialer X.label X.skipLabel
    refine ⟨fun hn => (by cases hn), ⟨[], [], ?_, ⟨.inl rfl, .inl rfl⟩, fun b m _ _ => ⟨fun _ => rfl, .inl rfl⟩, fun _ hn => by cases hn⟩,
      fun b m _ hm hf => (by cases hm; cases hf), fun hd => absurd rfl hd, ⟨[], rfl, rfl⟩, ?_, fun b m hb2 hm2 => ?_,
      fun b m hb2 _ _ _ s hs => (by cases hb2; cases hs), ?_⟩
    · show downs [] ++ v.down = _
      rw [k5]; rfl
    · show dialled [] + (v.conn ++ [(peer, sid)]).length ≤ 1
      rw [k4]; simp [dialled]
    · cases hb2; cases hm2
      show Bridge.Wire T.B (Spoken cfg env _) _ label ring (written [] ++ flat v.out) _
      rw [k3]
      subst hX
      refine ⟨l1, fun hf => (by cases hf), fun _ _ => ?_, fun _ hs => (by cases hs), fun _ _ hs => (by cases hs), fun _ _ => rfl⟩
      exact l2
    · show ∃ r u, _ ∧ written [] ++ flat v.out <+: _ ∧ (v.out ≠ [] → _)
      rw [k3]
      exact ⟨ring, [], .inl rfl, List.nil_prefix, fun _ => rfl⟩
  | @mintOk b m mint s e now hb hi ht hh hmi hst hK =>
    have hnf : b.isFailed = false := by
      cases hf : b.isFailed with
      | false => rfl
      | true => rw [Bridge.terminal_of_failed hf] at ht; cases ht
    have hk := kept hok hl hb hi
    have hn := hk.shape.mint.1 (by rw [hmi]; rfl)
    obtain ⟨hsa, hfs⟩ := hk.bare hn hnf
    have hnshut : ¬ Bridge.Shut b := by
      rintro (h | h)
      · rw [hfs] at h; cases h
      · rw [hnf] at h; cases h
    have hw := h.wire b m hb hi
    have hin : s.phase = .inAwaiting → m.outbound = false := by
      intro hp
      cases mint with
      | inbound peer => exact (hk.shape.inb peer hmi).1
      | outbound sid =>
        exfalso
        simp only [mintOp, Ep.step, Ep.Out.stream.injEq] at hst
        unfold Ep.dialSucceeded at hst
        split at hst
        · cases hst
        · simp only [] at hst
          split at hst
          · cases hst
          · split at hst
            · cases hst
            · simp only [Option.some.injEq] at hst
              subst hst
              cases hp
    refine ⟨h.unborn, ?_, ?_, ?_, h.tail, h.conn, ?_, ?_, h.bytes⟩
    · obtain ⟨half, full, h1, h2, h3, h4⟩ := h.tear
      refine ⟨half, full, h1, h2, fun b2 m2 hb2 hm2 => ?_, fun _ hn => by cases hn⟩
      cases hm2; cases hb2
      obtain ⟨g1, g2⟩ := h3 b m hb hi
      exact ⟨g1, .inl (g2.resolve_right (fun h => by rw [hnf] at h; cases h.2))⟩
    · intro b2 m2 hb2 hm2 hf
      cases hm2
      exact absurd (h.shut b m hb hi hf) hnshut
    · intro hd
      exact absurd ((h.quiet hd).2.2 b hb).1 hnshut
    · intro b2 m2 hb2 hm2
      cases hm2; cases hb2
      exact ⟨hw.pipe, fun hf => (by cases hf), fun _ _ => hw.fresh hnf hsa, fun _ hs => (by
        have hs : b.sentAny = true := hs
        rw [hsa] at hs; cases hs), fun _ s2 hs2 => (by
        cases hs2
        show Bridge.Due T.B _ _ b.precompressed _
        rw [hw.bare hnf hn]
        exact due_opened hst hin (fun _ => .request hst)), fun _ hx => (by cases hx)⟩
    · intro b2 m2 hb2 hm2 ho
      cases hm2; cases hb2
      intro _ s2 hs2
      cases hs2
      right
      cases mint with
      | inbound peer =>
        have ho : m.outbound = true := ho
        rw [(hk.shape.inb peer hmi).1] at ho; cases ho
      | outbound sid =>
        simp only [mintOp, Ep.step, Ep.Out.stream.injEq] at hst
        unfold Ep.dialSucceeded at hst
        split at hst
        · cases hst
        · simp only [] at hst
          split at hst
          · cases hst
          · split at hst
            · cases hst
            · simp only [Option.some.injEq] at hst
              subst hst
              exact ⟨_, rfl⟩
  | @mintOut b m sid now hb hi ht hh hmi =>
    have hnf : b.isFailed = false := by
      cases hf : b.isFailed with
      | false => rfl
      | true => rw [Bridge.terminal_of_failed hf] at ht; cases ht
    obtain ⟨half, full, h1, h2, h3, h4⟩ := h.tear
    obtain ⟨_, g2⟩ := h3 b m hb hi
    have e2 : full = [] := g2.resolve_right (fun h => by rw [hnf] at h; cases h.2)
    subst e2
    refine h.gone _ (show v.born = true from born_of hok hb) rfl rfl (.inr rfl) ⟨half, [.abort], ?_, ⟨h2.1, by simp⟩, by simp⟩
    show downs E ++ (v.down ++ [.abort]) = _
    rw [← List.append_assoc, h1, List.append_nil]
  | @mintIn b m peer now hb hi ht hh hmi =>
    have hnf : b.isFailed = false := by
      cases hf : b.isFailed with
      | false => rfl
      | true => rw [Bridge.terminal_of_failed hf] at ht; cases ht
    have hk := kept hok hl hb hi
    have hn := hk.shape.mint.1 (by rw [hmi]; rfl)
    obtain ⟨hsa, hfs⟩ := hk.bare hn hnf
    have hd : downs E = [] := by
      cases hd : downs E with
      | nil => rfl
      | cons t l =>
        rcases ((h.quiet (by rw [hd]; simp)).2.2 b hb).1 with h | h
        · rw [hfs] at h; cases h
        · rw [hnf] at h; cases h
    refine h.gone _ (show v.born = true from born_of hok hb) rfl rfl (.inl rfl) ⟨[], [.abort], ?_, ⟨.inl rfl, by simp⟩, by simp⟩
    show downs E ++ [.abort] = _
    rw [hd]
  | cancel hL hc ho =>
    have hd : downs E = [] := by
      cases hd : downs E with
      | nil => rfl
      | cons t l => exact absurd (h.quiet (by rw [hd]; simp)).1 ho
    have hbn : v.born = true := by
      cases hn : v.born with
      | true => rfl
      | false => exact absurd (hok.born hn).2.2.1 ho
    refine h.gone _ hbn rfl rfl (.inl rfl) ⟨[], [.abort], ?_, ⟨.inl rfl, by simp⟩, by simp⟩
    show downs E ++ [.abort] = _
    rw [hd]

theorem VDrive.first {label : Option Bytes} {E : List (XEmit A)} {x : Nat} {ring ring' : Option Keyring} {v v' : XV I A}
    {op : XOp I A} {em : List (XEmit A)} (hX : X.label = label) (hok : VOk cfg x ring v) (hl : VLife x v)
    (hmute : ∀ b, v.br = some b → Mute b) (h : VDrive cfg env T label E ring v)
    (hf : VFirst cfg env X T x ring v op em ring' v') : VDrive cfg env T label (E ++ em) ring' v' := by
  have go : ∀ (v' : XV I A) (f : Bridge I A → Bridge I A), v'.born = v.born → v'.br = v.br.map f → v'.info = v.info →
      v'.out = v.out → v'.conn = v.conn → v'.down = v.down →
      (∀ b m, Kept cfg ring x m b → ∀ o, Go T.B (Spoken cfg env o) (o = false) label ring b (f b)) → VDrive cfg env T label E ring v' := by
    intro v' f e1 e2 e3 e4 e5 e6 hg
    cases hb : v.br with
    | none =>
      rw [hb] at e2
      exact h.same _ e1 (by rw [e2, hb]; rfl) e3 e4 e5 e6
    | some b =>
      rw [hb] at e2
      obtain ⟨m, hm⟩ := info_of hok hb
      exact h.go _ hb e1 e2 e3 e4 e5 e6 hm (hg b m (kept hok hl hb hm))
  have hbo : ∀ {P : Prop}, v.born = true ∨ P → v.born = false → P := by
    intro P h1 h2
    rcases h1 with h1 | h1
    · rw [h2] at h1; cases h1
    · exact h1
  cases hf with
  | keep => rw [List.append_nil]; exact h
  | feed bytes eof now => rw [List.append_nil]; exact go _ _ rfl rfl rfl rfl rfl rfl (fun b m hk o => hk.goFeedAll _ _ _ _ o)
  | dialFailed => rw [List.append_nil]; exact go _ _ rfl rfl rfl rfl rfl rfl (fun b m _ _ => .fail b _)
  | transportError => rw [List.append_nil]; exact go _ _ rfl rfl rfl rfl rfl rfl (fun b m _ _ => .fail b _)
  | leave =>
    rw [List.append_nil]
    refine ⟨h.unborn, h.tear, h.shut, fun hd => ?_, h.tail, ?_, h.wire, h.said, h.bytes⟩
    · exact ⟨(h.quiet hd).1, rfl, (h.quiet hd).2.2⟩
    · have := h.conn
      simp only [List.length_nil]; omega
  | encrypt _ hne =>
    rw [List.append_nil]
    obtain ⟨half, full, h1, h2, h3, h4⟩ := h.tear
    cases hb : v.br with
    | none =>
      refine ⟨h.unborn, ⟨half, full, ?_, h2, fun b m h => (by cases h), fun hbn _ => h4 hbn hb⟩, fun b m h => (by cases h), fun hd => ?_,
        h.tail, ?_, fun b m h => (by cases h), fun b m h => (by cases h), ?_⟩
      · simp only [Option.any_none, Bool.false_eq_true, if_false, List.append_nil]
        exact h1
      · refine ⟨rfl, ?_, fun b h => (by cases h)⟩
        simp only [Option.any_none, Bool.false_eq_true, if_false]
        exact (h.quiet hd).2.1
      · simp only [Option.any_none, Bool.false_eq_true, if_false]
        exact h.conn
      · obtain ⟨r, u, g1, g2, _⟩ := h.bytes
        refine ⟨r, u, g1, List.IsPrefix.trans ?_ g2, fun hn => absurd rfl hn⟩
        simp [flat]
    | some b =>
      obtain ⟨m, hm⟩ := info_of hok hb
      obtain ⟨k1, k2⟩ := h3 b m hb hm
      have hfl : (b.setEncryption ring').isFailed = true := Bridge.fail_failed _ _
      have hpipe := (h.wire b m hb hm).pipe
      have hdead : b.isFailed = true → b.records.outbound = [] := (h.wire b m hb hm).dead
      have hw : ∀ o w, Bridge.Wire T.B (Spoken cfg env o) (o = false) label ring' w (b.setEncryption ring') := fun o w =>
        Bridge.Wire.fail' (b := { b with ring := ring' }) hpipe hdead _
      refine ⟨h.unborn, ?_, fun b2 m2 hb2 _ _ => ?_, fun hd => ?_, h.tail, ?_, fun b2 m2 hb2 _ => ?_, fun b2 m2 hb2 _ _ => ?_, ?_⟩
      · by_cases hnf : b.isFailed = true
        · refine ⟨half, full, by simpa [hnf] using h1, h2, fun b2 m2 hb2 hm2 => ?_, fun _ hn => (by cases hn)⟩
          cases hb2
          obtain ⟨l1, l2⟩ := h3 b m2 hb hm2
          exact ⟨l1, l2.imp id (fun e => ⟨e.1, hfl⟩)⟩
        · have hnf : b.isFailed = false := by simpa using hnf
          have e2 : full = [] := k2.resolve_right (fun h => by rw [hnf] at h; cases h.2)
          subst e2
          refine ⟨half, [.abort], ?_, ⟨h2.1, by simp⟩, fun b2 m2 hb2 hm2 => ?_, fun _ hn => (by cases hn)⟩
          · simp only [Option.any_some, hnf, Bool.not_false, if_true]
            rw [← List.append_assoc, h1, List.append_nil]
          · cases hb2
            exact ⟨(h3 b m2 hb hm2).1, .inr ⟨rfl, hfl⟩⟩
      · cases hb2; exact .inr hfl
      · refine ⟨rfl, ?_, fun b2 hb2 => ?_⟩
        · split
          · rfl
          · exact (h.quiet hd).2.1
        · cases hb2
          exact ⟨.inr hfl, (hw false []).dead hfl⟩
      · have := h.conn
        show dialled E + (if (some b).any (fun b => !b.isFailed) = true then [] else v.conn).length ≤ 1
        split
        · simp only [List.length_nil]; omega
        · exact this
      · cases hb2; exact hw _ _
      · cases hb2; exact .dead hfl
      · obtain ⟨r, u, g1, g2, _⟩ := h.bytes
        refine ⟨r, u, g1, List.IsPrefix.trans ?_ g2, fun hn => absurd rfl hn⟩
        simp [flat]
  | compress cmp =>
    rw [List.append_nil]
    exact go _ _ rfl rfl rfl rfl rfl rfl (fun b m _ _ => ⟨.setCompression b cmp, fun _ hw => hw.same rfl rfl rfl rfl rfl, fun _ _ _ h => h, fun h => h⟩)
  | @popOut e rest he =>
    have hbn : v.born = false → False := fun hn => by
      have := (hok.born hn).2.2.1
      rw [he] at this; cases this
    have hd : downs E = [] := by
      cases hd : downs E with
      | nil => rfl
      | cons t l =>
        have := (h.quiet (by rw [hd]; simp)).1
        rw [he] at this; cases this
    have hd' : downs (E ++ [.bytes e.2]) = [] := by rw [downs_append, hd]; rfl
    have hwr : written (E ++ [.bytes e.2]) ++ flat rest = written E ++ flat v.out := by
      rw [written_append, he]
      simp [written, flat]
    refine ⟨fun hn => (hbn hn).elim, ?_, h.shut, fun hq => absurd hd' hq, ⟨_, by rw [hd', List.map_nil, List.append_nil], hd'⟩, ?_, fun b m hb hm => ?_, h.said, ?_⟩
    · rw [hd']
      have := h.tear
      rw [hd] at this
      exact this
    · rw [dialled_append]; exact h.conn
    · show Bridge.Wire T.B (Spoken cfg env m.outbound) (m.outbound = false) label ring (written (E ++ [.bytes e.2]) ++ flat rest) b
      rw [hwr]; exact h.wire b m hb hm
    · obtain ⟨r, u, g1, g2, g3⟩ := h.bytes
      refine ⟨r, u, g1, ?_, fun _ => g3 (by rw [he]; simp)⟩
      show written (E ++ [.bytes e.2]) ++ flat rest <+: _
      rw [hwr]; exact g2
  | @popConnect peer sid rest hc =>
    have hbn : v.born = false → False := fun hn => by
      have := (hok.born hn).2.2.2.1
      rw [hc] at this; cases this
    have hd : downs E = [] := by
      cases hd : downs E with
      | nil => rfl
      | cons t l =>
        have := (h.quiet (by rw [hd]; simp)).2.1
        rw [hc] at this; cases this
    have hd' : downs (E ++ [.connect peer sid]) = [] := by rw [downs_append, hd]; rfl
    have hwr : written (E ++ [.connect peer sid]) = written E := by rw [written_append]; simp [written]
    refine ⟨fun hn => (hbn hn).elim, ?_, h.shut, fun hq => absurd hd' hq, ⟨_, by rw [hd', List.map_nil, List.append_nil], hd'⟩, ?_, ?_, h.said, ?_⟩
    · rw [hd']
      have := h.tear
      rw [hd] at this
      exact this
    · have := h.conn
      rw [hc] at this
      rw [dialled_append]
      simp only [dialled, List.length_cons] at this ⊢
      omega
    · rw [hwr]; exact h.wire
    · rw [hwr]; exact h.bytes
  | @popDown t rest hc ho hdn =>
    have hbn : v.born = false → False := fun hn => by
      have := (hok.born hn).2.2.2.2
      rw [hdn] at this; cases this
    have hd' : downs (E ++ [.down t]) = downs E ++ [t] := by rw [downs_append]; rfl
    have hwr : written (E ++ [.down t]) = written E := by rw [written_append]; simp [written]
    have hD : downs (E ++ [.down t]) ++ rest = downs E ++ v.down := by rw [hd', hdn]; simp
    refine ⟨fun hn => (hbn hn).elim, ?_, h.shut, fun _ => ⟨ho, hc, fun b hb => ⟨?_, hmute b hb⟩⟩, ?_, ?_, ?_, h.said, ?_⟩
    · obtain ⟨half, full, h1, h2, h3, h4⟩ := h.tear
      exact ⟨half, full, by rw [← h1]; exact hD, h2, h3, h4⟩
    · have hb : v.br = some b := hb
      obtain ⟨m, hm⟩ := info_of hok hb
      obtain ⟨half, full, h1, h2, h3, h4⟩ := h.tear
      obtain ⟨k1, k2⟩ := h3 b m hb hm
      rcases k2 with k2 | ⟨_, k2⟩
      · cases hfe : m.finEmitted with
        | true => exact h.shut b m hb hm hfe
        | false =>
          rw [k1 hfe, k2, hdn] at h1
          simp at h1
      · exact .inr k2
    · obtain ⟨pre, p1, p2⟩ := h.tail
      refine ⟨pre, ?_, p2⟩
      rw [hd', List.map_append, ← List.append_assoc, ← p1]; rfl
    · rw [dialled_append]; exact h.conn
    · rw [hwr]; exact h.wire
    · rw [hwr]; exact h.bytes
  | accept src now cmp hb =>
    obtain ⟨k1, k2, k3, k4, k5⟩ := hok.born hb
    have hE := h.unborn hb
    subst hE
    obtain ⟨l1, l2⟩ := LOk.newAcceptor X.label X.skipLabel
    refine ⟨fun hn => (by cases hn), ⟨[], [], ?_, ⟨.inl rfl, .inl rfl⟩, fun b m _ _ => ⟨fun _ => rfl, .inl rfl⟩, fun _ hn => by cases hn⟩,
      fun b m _ hm hf => (by cases hm; cases hf), fun hd => absurd rfl hd, ⟨[], rfl, rfl⟩, ?_, fun b m hb2 hm2 => ?_,
      fun b m hb2 _ _ _ s hs => (by cases hb2; cases hs), ?_⟩
    · show downs [] ++ v.down = _
      rw [k5]; rfl
    · show dialled [] + v.conn.length ≤ 1
      rw [k4]; simp [dialled]
    · cases hb2; cases hm2
      show Bridge.Wire T.B (Spoken cfg env _) _ label ring (written [] ++ flat v.out) _
      rw [k3]
      subst hX
      refine ⟨l1, fun hf => (by cases hf), fun _ _ => ?_, fun _ hs => (by cases hs), fun _ _ hs => (by cases hs), fun _ _ => rfl⟩
      exact l2
    · show ∃ r u, _ ∧ written [] ++ flat v.out <+: _ ∧ (v.out ≠ [] → _)
      rw [k3]
      exact ⟨ring, [], .inl rfl, List.nil_prefix, fun _ => rfl⟩

/-- What holds after a first history and is kept by every first effect and every move holds later. -/
theorem view_run_from {P : List (XOp I A × List (XEmit A)) → Option Keyring → XV I A → Prop} {t0 : Nat} {e0 : Ep I A}
    (hnew : Ep.tryNew cfg env t0 = .ok e0) (cmp : CmpOptions) (pre : List (XOp I A)) (x : Nat)
    (h0 : P [] ((Coord.new e0 cmp).run cfg env X T pre).ring (((Coord.new e0 cmp).run cfg env X T pre).view x))
    (hf : ∀ h ring v op em ring' v', VOk cfg x ring v → VLife x v → (∀ b, v.br = some b → Mute b) → P h ring v →
      VFirst cfg env X T x ring v op em ring' v' → P (h ++ [(op, em)]) ring' v')
    (hm : ∀ N L h ring v v', VOk cfg x ring v → VLife x v → P h ring v →
      VStep cfg env X T N L Meant x ring v v' → P h ring v')
    (ops : List (XOp I A)) :
    P (hist cfg env X T ((Coord.new e0 cmp).run cfg env X T pre) x ops)
      ((Coord.new e0 cmp).run cfg env X T (pre ++ ops)).ring
      (((Coord.new e0 cmp).run cfg env X T (pre ++ ops)).view x) := by
  have hr0 := Ep.reachable_new hnew
  have hrun : ∀ l, (Coord.new e0 cmp).run cfg env X T (pre ++ l) =
      ((Coord.new e0 cmp).run cfg env X T pre).run cfg env X T l := fun l => by
    simp [Coord.run, List.foldl_append]
  induction ops using snoc_induction with
  | h0 => rw [List.append_nil]; exact h0
  | h1 ops op ih =>
    rw [hist_snoc, ← List.append_assoc, xrun_snoc, ← hrun]
    have hs := shape_run (cfg := cfg) (env := env) (X := X) (T := T) e0 cmp (pre ++ ops)
    have hk := kinded_run (cfg := cfg) (env := env) (X := X) (T := T) hnew cmp (pre ++ ops)
    have hq := mute_run (cfg := cfg) (env := env) (X := X) (T := T) e0 cmp (pre ++ ops)
    have hl := life_run (cfg := cfg) (env := env) (X := X) (T := T) hnew cmp (pre ++ ops) x
    revert ih hs hk hq hl
    generalize (Coord.new e0 cmp).run cfg env X T (pre ++ ops) = c
    intro ih hs hk hq hl
    obtain ⟨c1, h1, h2⟩ := step_moves (cfg := cfg) (env := env) (X := X) (T := T) c op
    have hv := view_first hs h1 x
    have h3 := hf _ _ _ _ _ _ _ (vok hs x) hl (fun b hb => hq x b hb (by simp)) ih hv
    generalize hist cfg env X T ((Coord.new e0 cmp).run cfg env X T pre) x ops ++ [(op, emitOf x (c.step cfg env X T op).2)] = h at h3 ⊢
    have h5 : Shape cfg env e0 (c.step cfg env X T op).1 ∧ Kinded (c.step cfg env X T op).1 ∧
        VLife x ((c.step cfg env X T op).1.view x) ∧
        P h (c.step cfg env X T op).1.ring ((c.step cfg env X T op).1.view x) := by
      refine h2.inv (P := fun c' => Shape cfg env e0 c' ∧ Kinded c' ∧ VLife x (c'.view x) ∧ P h c'.ring (c'.view x))
        ?_ ⟨hs.first h1 (order_mem T), hk.first hs h1, hl.first (vok hs x) hv, h3⟩
      rintro c' c'' hmv ⟨g1, g2, g3, g4⟩
      have hst := view_move g1 hmv (fun y m mint s now h1 h2 h3 => g2.meant h1 h2 h3) x
      refine ⟨g1.move hmv, g2.move hr0 g1 hmv, g3.step (vok g1 x) hst, ?_⟩
      rw [move_ring hmv]
      exact hm _ _ _ _ _ _ (vok g1 x) g3 g4 hst
    exact h5.2.2.2

theorem hist_handed (c : Coord I A) (x : Nat) (ops : List (XOp I A)) :
    (hist cfg env X T c x ops).flatMap Prod.snd = handed x (c.outs cfg env X T ops) := by
  induction ops generalizing c with
  | nil => rfl
  | cons op ops ih =>
    show emitOf x _ ++ (hist cfg env X T _ x ops).flatMap Prod.snd = _
    rw [ih]; rfl

/-- After every history. -/
theorem drive_run {t0 : Nat} {e0 : Ep I A} (hnew : Ep.tryNew cfg env t0 = .ok e0) (cmp : CmpOptions)
    (ops : List (XOp I A)) (x : Nat) :
    VDrive cfg env T X.label (handed x ((Coord.new e0 cmp).outs cfg env X T ops)) ((Coord.new e0 cmp).run cfg env X T ops).ring
      (((Coord.new e0 cmp).run cfg env X T ops).view x) := by
  have := view_run_from (cfg := cfg) (env := env) (X := X) (T := T)
    (P := fun h ring v => VDrive cfg env T X.label (h.flatMap Prod.snd) ring v) hnew cmp [] x ?_ ?_ ?_ ops
  · rw [hist_handed] at this; exact this
  · refine ⟨fun _ => rfl, ⟨[], [], rfl, ⟨.inl rfl, .inl rfl⟩, fun b m h => (by cases h), fun h => (by cases h)⟩, fun b m h => (by cases h),
      fun h => absurd rfl h, ⟨[], rfl, rfl⟩, Nat.zero_le 1, fun b m h => (by cases h), fun b m h => (by cases h),
      ⟨none, [], .inl rfl, List.nil_prefix, fun h => absurd rfl h⟩⟩
  · intro h ring v op em ring' v' hok hl hmute hp hf
    rw [List.flatMap_append, List.flatMap_singleton]
    exact hp.first rfl hok hl hmute hf
  · intro N L h ring v v' hok hl hp hs
    exact hp.step rfl hok hl hs

/-! ### What a connection that was closed has carried -/

/-- An exchange that was closed in order has everything on the wire or in the queue. -/
structure Whole (cfg : Cfg I A) (env : Env I A) (T : TEnv) (label : Option Bytes) (outb : Bool) (E : List (XEmit A)) (ring : Option Keyring) (v : XV I A) :
    Prop where
  born : v.born = true
  dir : ∀ m, v.info = some m → m.outbound = outb
  all : .close ∈ downs E ++ v.down → ∃ u, (SealedUnit T.B (Spoken cfg env outb) ring u ∨ (outb = false ∧ u = [])) ∧
    written E ++ flat v.out = header label ++ u

theorem no_close {label : Option Bytes} {E : List (XEmit A)} {ring : Option Keyring} {v : XV I A}
    (h : VDrive cfg env T label E ring v) {b : Bridge I A} {m : XMeta A} (hb : v.br = some b) (hm : v.info = some m) :
    .close ∉ downs E ++ v.down := by
  obtain ⟨half, full, h1, h2, h3, _⟩ := h.tear
  rw [h1]
  rcases h2.1 with e | e <;> rcases (h3 b m hb hm).2 with e' | ⟨e', _⟩ <;> rw [e, e'] <;> simp

theorem Whole.step {label : Option Bytes} {outb : Bool} {E : List (XEmit A)} {x : Nat} {ring : Option Keyring} {v v' : XV I A}
    (hok : VOk cfg x ring v) (hl : VLife x v) (hd : VDrive cfg env T label E ring v) (h : Whole cfg env T label outb E ring v)
    (hs : VStep cfg env X T N L Meant x ring v v') : Whole cfg env T label outb E ring v' := by
  have nope : ∀ {b m} (_ : v.br = some b) (_ : v.info = some m) (l : List Teardown), .close ∉ l → .close ∉ downs E ++ (v.down ++ l) := by
    intro b m hb hm l hl hc
    rw [← List.append_assoc] at hc
    rcases List.mem_append.1 hc with hc | hc
    · exact no_close hd hb hm hc
    · exact hl hc
  cases hs with
  | refl => exact h
  | call => exact ⟨h.born, h.dir, h.all⟩
  | bridge => exact ⟨h.born, h.dir, h.all⟩
  | commit => exact ⟨h.born, h.dir, h.all⟩
  | shutdown hb _ _ hi => exact ⟨h.born, fun m hm => (by cases hm; have := h.dir _ hi; exact this), fun hc => absurd hc (nope hb hi _ (by simp))⟩
  | collect hb hi => exact ⟨h.born, h.dir, fun hc => (no_close hd hb hi hc).elim⟩
  | reapFailed hb hi => exact ⟨h.born, fun m hm => (by cases hm), fun hc => absurd hc (nope hb hi _ (by simp))⟩
  | @reapClosed b m hb hi hph he =>
    refine ⟨h.born, fun m hm => (by cases hm), fun _ => ?_⟩
    have hnf : b.isFailed = false := by unfold Bridge.isFailed; rw [hph]
    have hw := hd.wire b m hb hi
    rw [h.dir m hi] at hw
    have hk := kept hok hl hb hi
    have hst : b.stream ≠ none := by
      intro hn
      rcases hk.shape.idle hn with h1 | h1
      · rw [h1] at hph; cases hph
      · rw [hnf] at h1; cases h1
    have e : flat (v.out ++ piece m.peer b.transmit.2) = flat v.out ++ b.records.outbound := flat_piece _ _ _
    show ∃ u, _ ∧ written E ++ flat (v.out ++ piece m.peer b.transmit.2) = _
    rw [e, ← List.append_assoc]
    cases hs : b.sentAny with
    | true =>
      obtain ⟨u, h1, h2⟩ := hw.full hnf hs
      exact ⟨u, .inl h1, h2⟩
    | false =>
      refine ⟨[], .inr ⟨?_, rfl⟩, ?_⟩
      · cases ho : outb with
        | false => rfl
        | true =>
          exfalso
          have := hd.said b m hb hi ((h.dir m hi).trans ho)
          cases hss : b.stream with
          | none => exact hst hss
          | some s =>
            obtain ⟨p0, n, ha⟩ := hk.able.alive s hss hnf
            rcases this hnf s hss with g | ⟨k, g⟩
            · rw [hs] at g; cases g
            · have hsent := ha.fin (ha.send (.inr hph))
              unfold Sent at hsent
              rw [g] at hsent
              exact hsent
      · rw [hw.fresh hnf hs, hw.pipe.head_open (hk.shape.valid hst), List.append_nil]
  | dial peer sid deadline cmp kind hb => rw [h.born] at hb; cases hb
  | mintOk e now hb hi => exact ⟨h.born, fun m hm => (by cases hm; have := h.dir _ hi; exact this), fun hc => (no_close hd hb hi hc).elim⟩
  | mintOut now hb hi => exact ⟨h.born, fun m hm => (by cases hm), fun hc => absurd hc (nope hb hi _ (by simp))⟩
  | mintIn now hb hi =>
    refine ⟨h.born, fun m hm => (by cases hm), fun hc => ?_⟩
    rcases List.mem_append.1 hc with hc | hc
    · exact absurd (List.mem_append_left _ hc) (no_close hd hb hi)
    · simp at hc
  | cancel hL hc ho =>
    refine ⟨h.born, fun m hm => (by cases hm), fun hc => ?_⟩
    have h0 : downs E = [] := by
      cases h0 : downs E with
      | nil => rfl
      | cons t l => exact absurd (hd.quiet (by rw [h0]; simp)).1 ho
    rw [h0] at hc
    simp at hc

theorem Whole.first {label : Option Bytes} {outb : Bool} {E : List (XEmit A)} {x : Nat} {ring ring' : Option Keyring} {v v' : XV I A}
    {op : XOp I A} {em : List (XEmit A)} (hop : ∀ r, op ≠ .setEncryption r) (h : Whole cfg env T label outb E ring v)
    (hf : VFirst cfg env X T x ring v op em ring' v') : Whole cfg env T label outb (E ++ em) ring' v' := by
  cases hf with
  | keep => rw [List.append_nil]; exact h
  | feed => rw [List.append_nil]; exact ⟨h.born, h.dir, h.all⟩
  | dialFailed => rw [List.append_nil]; exact ⟨h.born, h.dir, h.all⟩
  | transportError => rw [List.append_nil]; exact ⟨h.born, h.dir, h.all⟩
  | leave => rw [List.append_nil]; exact ⟨h.born, h.dir, h.all⟩
  | encrypt => exact absurd rfl (hop _)
  | compress => rw [List.append_nil]; exact ⟨h.born, h.dir, h.all⟩
  | @popOut e rest he =>
    refine ⟨h.born, h.dir, ?_⟩
    have hall := h.all
    rw [downs_append, written_append, List.append_assoc, List.append_assoc]
    rw [he] at hall
    simpa [downs, written, flat] using hall
  | @popConnect peer sid rest hc =>
    refine ⟨h.born, h.dir, ?_⟩
    have hall := h.all
    rw [downs_append, written_append]
    simpa [downs, written] using hall
  | @popDown t rest hc ho hdn =>
    refine ⟨h.born, h.dir, ?_⟩
    have hall := h.all
    rw [downs_append, written_append]
    rw [hdn] at hall
    simpa [downs, written] using hall
  | accept src now cmp hb => rw [h.born] at hb; cases hb

/-- An exchange that was held, and was then closed with no change of keys in between. -/
theorem whole_run {t0 : Nat} {e0 : Ep I A} (hnew : Ep.tryNew cfg env t0 = .ok e0) (cmp : CmpOptions)
    (pre ops : List (XOp I A)) (x : Nat) {m : XMeta A}
    (hm : (((Coord.new e0 cmp).run cfg env X T pre).view x).info = some m)
    (hops : ∀ op ∈ ops, ∀ r, op ≠ .setEncryption r) :
    Whole cfg env T X.label m.outbound (handed x ((Coord.new e0 cmp).outs cfg env X T (pre ++ ops)))
      ((Coord.new e0 cmp).run cfg env X T (pre ++ ops)).ring
      (((Coord.new e0 cmp).run cfg env X T (pre ++ ops)).view x) := by
  have hd := drive_run (cfg := cfg) (env := env) (X := X) (T := T) hnew cmp pre x
  have hsh := vok (shape_run (cfg := cfg) (env := env) (X := X) (T := T) e0 cmp pre) x
  have := view_run_from (cfg := cfg) (env := env) (X := X) (T := T)
    (P := fun h ring v => VDrive cfg env T X.label (handed x ((Coord.new e0 cmp).outs cfg env X T pre) ++ h.flatMap Prod.snd) ring v ∧
      ((∀ e ∈ h, ∀ r, e.1 ≠ .setEncryption r) →
        Whole cfg env T X.label m.outbound (handed x ((Coord.new e0 cmp).outs cfg env X T pre) ++ h.flatMap Prod.snd) ring v)) hnew cmp pre x ?_ ?_ ?_ ops
  · have h2 := this.2 (fun e he => hops e.1 (List.of_mem_zip he).1)
    rw [hist_handed] at h2
    have e : (Coord.new e0 cmp).outs cfg env X T (pre ++ ops) =
        (Coord.new e0 cmp).outs cfg env X T pre ++ ((Coord.new e0 cmp).run cfg env X T pre).outs cfg env X T ops := by
      generalize Coord.new e0 cmp = c
      clear * -
      induction pre generalizing c with
      | nil => rfl
      | cons a pre ih => simp only [List.cons_append, outs, ih]; rfl
    rw [e, handed, List.flatMap_append]
    exact h2
  · simp only [List.flatMap_nil, List.append_nil]
    refine ⟨hd, fun _ => ?_⟩
    cases hb : (((Coord.new e0 cmp).run cfg env X T pre).view x).br with
    | none => rw [hsh.keys.1 hb] at hm; cases hm
    | some b =>
      exact ⟨born_of hsh hb, fun m2 hm2 => (by rw [hm] at hm2; cases hm2; rfl), fun hc => absurd hc (no_close hd hb hm)⟩
  · rintro h ring v op em ring' v' hok hl hmute ⟨hp, hw⟩ hf
    rw [List.flatMap_append, List.flatMap_singleton, ← List.append_assoc]
    refine ⟨hp.first rfl hok hl hmute hf, fun hall => Whole.first (hall (op, em) (by simp)) (hw (fun e he => hall e (List.mem_append_left _ he))) hf⟩
  · rintro N L h ring v v' hok hl ⟨hp, hw⟩ hs
    exact ⟨hp.step rfl hok hl hs, fun hall => (hw hall).step hok hl hp hs⟩

end Coord
end Verif
