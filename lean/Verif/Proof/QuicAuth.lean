import Verif.Proof.QuicFed
import Verif.Proof.QuicWire
import Verif.Proof.QuicFates
/-
The endpoint of a QUIC node, and where what it is told comes from.
-/
namespace Verif
open Spec

theorem behind_effective {label : Option Bytes} {skip : Bool} {w body : Bytes} :
    Behind (effectiveLabel label) skip w body ↔ Behind label skip w body := by
  unfold effectiveLabel Behind
  cases label with
  | none => exact Iff.rfl
  | some l => cases l <;> exact Iff.rfl

namespace QBridge
variable {I A : Type} [DecidableEq I] {CI : DataCodec I} {CA : DataCodec A} {T : TEnv}

/-- `b'` is `b` at a later time. -/
structure Later (b b' : QBridge I A) : Prop where
  got : b.got <+: b'.got
  late : b.late = true → b'.late = true
  eager : b'.eager = b.eager

omit [DecidableEq I] in
theorem Later.refl (b : QBridge I A) : Later b b := ⟨List.prefix_rfl, id, rfl⟩

theorem BMove.later {b b' : QBridge I A} (hm : BMove CI CA T b b') : Later b b' := by
  have hal := hm.alike
  have of : b'.got = b.got → b'.late = b.late → Later b b' := fun h1 h2 => ⟨by rw [h1], by rw [h2]; exact id, hal.eager⟩
  cases hm with
  | flag q => exact of rfl rfl
  | wrote n => exact of rfl rfl
  | finish => exact of rfl rfl
  | drop r => exact of (drop_rest b r).1 (drop_rest b r).2.1
  | fail r => exact of (fail_rest b r).1 (fail_rest b r).2.1
  | gather now hf hs => exact of (gather_rest T b now).1 (gather_rest T b now).2.1
  | timeout now r => exact of (drop_rest _ r).1 (drop_rest _ r).2.1
  | cut now r => exact of (drop_rest _ r).1 (drop_rest _ r).2.1
  | sendFin =>
    refine of ?_ ?_ <;> unfold observeSendFin <;> split <;> rfl
  | chunk bytes now hc =>
    obtain ⟨k1, k2⟩ := takeChunk_got (CI := CI) (CA := CA) (T := T) b bytes now
    exact ⟨by rw [k1]; exact List.prefix_append _ _, fun h => by rw [k2, h]; rfl, hal.eager⟩
  | refuse bytes now r =>
    obtain ⟨k1, k2⟩ := takeChunk_got (CI := CI) (CA := CA) (T := T) b bytes now
    obtain ⟨h1, h2, _⟩ := drop_rest (b.takeChunk CI CA T bytes now).1 r
    exact ⟨by rw [h1, k1]; exact List.prefix_append _ _, fun h => by rw [h2, k2, h]; rfl, hal.eager⟩
  | recvFin now _ _ _ =>
    refine ⟨?_, ?_, hal.eager⟩ <;> unfold observeRecvFin <;> split <;> first | exact List.prefix_append _ _ | exact List.prefix_rfl | exact id
  | late r _ =>
    obtain ⟨h1, h2, _⟩ := drop_rest b.observeRecvFin r
    refine ⟨?_, ?_, hal.eager⟩
    · rw [h1]; unfold observeRecvFin; split <;> first | exact List.prefix_append _ _ | exact List.prefix_rfl
    · rw [h2]; unfold observeRecvFin; split <;> exact id

/-- A bridge just made read nothing. -/
theorem heard_new {s0 : Stream I A} (h : Fed CI CA s0 [] s0) (ch sid slot : Nat) (cmp : CmpOptions) (max : Nat)
    (label : Option Bytes) (skip eager : Bool) :
    Heard CI CA T s0 { QBridge.new s0 ch sid cmp max label skip eager with slot := slot } := by
  refine .reads [] ⟨⟨[], rfl, rfl⟩, .inl rfl, fun g => ⟨?_, rfl, h⟩, fun g => ⟨[], [], [], ?_, rfl, .nil, h⟩, rfl⟩
  · have g : (effectiveLabel label).isNone = false := g
    show ∃ l, l ≠ [] ∧ effectiveLabel label = some l
    unfold effectiveLabel at g ⊢
    cases label with
    | none => simp at g
    | some l => cases l with
      | nil => simp at g
      | cons x l => exact ⟨x :: l, by simp, rfl⟩
  · have g : (effectiveLabel label).isNone = true := g
    show Behind (effectiveLabel label) skip [] []
    rw [Option.isNone_iff_eq_none] at g
    rw [g]; rfl

/-- What a payload that is handed over was read from. -/
theorem Heard.commit {s0 : Stream I A} {R : Bytes → Prop} {b b' : QBridge I A} {ev : PayloadEvent I A} {rest : List (PayloadEvent I A)}
    (h : Heard CI CA T s0 b) (hev : b.stream.endpointEvents = ev :: rest) (hr : b.Ripe) (hc : b.Committed R ev rest b') :
    Heard CI CA T s0 b' ∧ b'.got = b.got ∧ b'.late = b.late ∧
    (b.late = true ∨ ∃ (l : List Bytes) (post : List Got), b.got = l.map .bytes ++ .fin :: post ∧
      Brings CI CA T.B b.label b.skip b.max s0 l.flatten ev) := by
  have hgl : b'.got = b.got ∧ b'.late = b.late ∧ b'.phase = b.phase := by
    rcases hc with rfl | ⟨_, _, _, _, rfl⟩ <;> exact ⟨rfl, rfl, rfl⟩
  have hal := hc.alike
  cases h with
  | reads w h =>
    exfalso
    rcases hr with hr | hr
    · unfold isTerminal at hr
      rcases h.phase with e | e <;> rw [e] at hr <;> simp at hr
    · rcases h.phase with e | e <;> rw [e] at hr <;> cases hr
  | ended l post g1 g2 g3 g4 =>
    have hmem : ev ∈ b.stream.endpointEvents := by rw [hev]; exact List.mem_cons_self
    refine ⟨.ended l post (by rw [hgl.1]; exact g1) ?_ (by rw [hgl.2.2]; exact g3) ?_, hgl.1, hgl.2.1, .inr ⟨l, post, g1, g4 ev hmem⟩⟩
    · rcases hc with rfl | ⟨_, body, dl, _, rfl⟩
      · exact g2
      · trivial
    · intro ev' h'
      rw [hal.label, hal.skip, hal.max]
      refine g4 ev' ?_
      rw [hev]
      rcases hc with rfl | ⟨_, body, dl, _, rfl⟩ <;> exact List.mem_cons_of_mem _ h'
  | dead g1 g2 => rw [g2] at hev; cases hev
  | late g g' => exact ⟨.late (by rw [hgl.2.1]; exact g) (by unfold isFailed at g' ⊢; rw [hgl.2.2]; exact g'), hgl.1, hgl.2.1, .inl g⟩

end QBridge

namespace Quic
open Map QBridge
variable {I A : Type} [DecidableEq I] [DecidableEq A] {Q : Quinn A}
variable {cfg : Cfg I A} {env : Env I A} {X : QCfg} {T : TEnv}

/-- What a node may answer on exchange `x`. -/
def Ans (cfg : Cfg I A) (env : Env I A) (T : TEnv) (e0 : Ep I A) (calls : List (Option Nat × Ep.Op I A)) (x : Nat)
    (s0 : Stream I A) (b : QBridge I A) (body : Bytes) : Prop :=
  AnsweredBy cfg env T.B e0 calls x body ∨ Acked env.CI env.CA T s0 b body

/-- What is known of the stream of an exchange. -/
structure Carried (cfg : Cfg I A) (env : Env I A) (X : QCfg) (T : TEnv) (e0 : Ep I A)
    (calls : List (Option Nat × Ep.Op I A)) (x : Nat) (b : QBridge I A) : Prop where
  id_ : b.stream.id = x
  label : b.label = effectiveLabel X.label
  skip : b.skip = X.skipLabel
  max : b.max = cfg.maxStreamFrameSize
  source : ∃ s0 op n, OpenedBy cfg env e0 calls x op s0 ∧ Opens b.eager x op ∧ Heard env.CI env.CA T s0 b ∧
    QLife s0.phase n b ∧ Wrote T s0 (Ans cfg env T e0 calls x s0 b) b ∧ Resp T (Ans cfg env T e0 calls x s0 b) b ∧
    (b.eager = false → s0.phase = .inAwaiting)

theorem openedBy_mono {e0 : Ep I A} {calls : List (Option Nat × Ep.Op I A)} {x : Nat} {op : Ep.Op I A} {st : Stream I A}
    (h : OpenedBy cfg env e0 calls x op st) (l : List (Option Nat × Ep.Op I A)) :
    OpenedBy cfg env e0 (calls ++ l) x op st := by
  obtain ⟨h0, before, tag, h1, h2⟩ := h
  exact ⟨h0, before, tag, h1.trans (List.prefix_append _ _), h2⟩

theorem answeredBy_mono {B : Backends} {e0 : Ep I A} {calls : List (Option Nat × Ep.Op I A)} {x : Nat} {body : Bytes}
    (h : AnsweredBy cfg env B e0 calls x body) (l : List (Option Nat × Ep.Op I A)) :
    AnsweredBy cfg env B e0 (calls ++ l) x body := by
  obtain ⟨before, ev, t, p, c, h1, h2⟩ := h
  exact ⟨before, ev, t, p, c, h1.trans (List.prefix_append _ _), h2⟩

theorem Carried.mono {e0 : Ep I A} {calls : List (Option Nat × Ep.Op I A)} {x : Nat} {b : QBridge I A}
    (h : Carried cfg env X T e0 calls x b) (l : List (Option Nat × Ep.Op I A)) : Carried cfg env X T e0 (calls ++ l) x b := by
  obtain ⟨s0, op, n, h1, h2, h3, h4, h5, h6, h7⟩ := h.source
  have hm : ∀ body, Ans cfg env T e0 calls x s0 b body → Ans cfg env T e0 (calls ++ l) x s0 b body :=
    fun _ hb => hb.imp (fun hb => answeredBy_mono hb l) id
  exact ⟨h.id_, h.label, h.skip, h.max, s0, op, n, openedBy_mono h1 l, h2, h3, h4, h5.mono hm, h6.mono hm, h7⟩

theorem Carried.move {e0 : Ep I A} {calls : List (Option Nat × Ep.Op I A)} {x : Nat} {b b' : QBridge I A}
    (h : Carried cfg env X T e0 calls x b) (hm : BMove env.CI env.CA T b b') : Carried cfg env X T e0 calls x b' := by
  obtain ⟨s0, op, n, h1, h2, h3, h4, h5, h6, h7⟩ := h.source
  have hal := hm.alike
  have hr : ∀ body, Ans cfg env T e0 calls x s0 b body → Ans cfg env T e0 calls x s0 b' body := by
    refine fun _ hb => hb.imp id (fun hb => hb.mono ?_ hal.label hal.skip hal.max hal.cmp)
    obtain ⟨more, hmore⟩ := hm.later.got
    rw [← hmore, readOf_append]
    exact List.prefix_append _ _
  exact ⟨hal.id.trans h.id_, hal.label.trans h.label, hal.skip.trans h.skip, hal.max.trans h.max, s0, op, n, h1,
    by rw [hal.eager]; exact h2, h3.move hm, h4.move hm, (h5.mono hr).move h4 (h6.mono hr) hm,
    (h6.mono hr).move h4 h3 h7 hm (fun _ hb => .inr hb), by rw [hal.eager]; exact h7⟩

theorem Carried.slot {e0 : Ep I A} {calls : List (Option Nat × Ep.Op I A)} {x : Nat} {b : QBridge I A}
    (h : Carried cfg env X T e0 calls x b) (k : Nat) : Carried cfg env X T e0 calls x { b with slot := k } := by
  obtain ⟨s0, op, n, h1, h2, h3, h4, h5, h6, h7⟩ := h.source
  refine ⟨h.id_, h.label, h.skip, h.max, s0, op, n, h1, h2, ?_, ⟨h4.life, h4.recv⟩,
    ⟨h5.origin, h5.shown, h5.blank, h5.raw, h5.seen, h5.all, h5.full, h5.any, h5.req, h5.wait, h5.fin⟩, h6, h7⟩
  cases h3 with
  | reads w h => exact .reads w ⟨h.got, h.phase, h.shut, h.ajar, h.pre⟩
  | ended l post g1 g2 g3 g4 => exact .ended l post g1 g2 g3 g4
  | dead g1 g2 => exact .dead g1 g2
  | late g g' => exact .late g g'

/-- Where a payload on exchange `x` comes from. -/
def Source (cfg : Cfg I A) (env : Env I A) (X : QCfg) (T : TEnv) (e0 : Ep I A)
    (calls : List (Option Nat × Ep.Op I A)) (x : Nat) (b : QBridge I A) (ev : PayloadEvent I A) : Prop :=
  ∃ s0 op, OpenedBy cfg env e0 calls x op s0 ∧ Opens b.eager x op ∧
    (b.late = true ∨ ∃ (l : List Bytes) (post : List Got), b.got = l.map .bytes ++ .fin :: post ∧
      Brings env.CI env.CA T.B (effectiveLabel X.label) X.skipLabel cfg.maxStreamFrameSize s0 l.flatten ev)

theorem Source.mono {e0 : Ep I A} {calls : List (Option Nat × Ep.Op I A)} {x : Nat} {b b' : QBridge I A} {ev : PayloadEvent I A}
    (h : Source cfg env X T e0 calls x b ev) (l : List (Option Nat × Ep.Op I A)) (hl : Later b b') :
    Source cfg env X T e0 (calls ++ l) x b' ev := by
  obtain ⟨s0, op, h1, h2, h3⟩ := h
  refine ⟨s0, op, openedBy_mono h1 l, by rw [hl.eager]; exact h2, h3.imp hl.late ?_⟩
  rintro ⟨m, post, g1, g2⟩
  obtain ⟨more, hmore⟩ := hl.got
  exact ⟨m, post ++ more, by rw [← hmore, g1]; simp, g2⟩

theorem Carried.commit {e0 : Ep I A} {calls : List (Option Nat × Ep.Op I A)} {x : Nat} {b b' : QBridge I A}
    {ev : PayloadEvent I A} {rest : List (PayloadEvent I A)} {now : Nat}
    (h : Carried cfg env X T e0 calls x b) (hev : b.stream.endpointEvents = ev :: rest) (hr : b.Ripe)
    (hc : b.Committed (Answer cfg env T (e0.run cfg env (calls.map Prod.snd)) ev now) ev rest b') :
    Carried cfg env X T e0 (calls ++ [(some x, .streamEvent (.payload ev) now)]) x b' ∧ Later b b' ∧
    Source cfg env X T e0 calls x b' ev := by
  obtain ⟨s0, op, n, h1, h2, h3, h4, h5, h6, h7⟩ := (h.mono [(some x, .streamEvent (.payload ev) now)]).source
  have hc' : b.Committed (Ans cfg env T e0 (calls ++ [(some x, .streamEvent (.payload ev) now)]) x s0 b') ev rest b' := by
    rcases hc with rfl | ⟨hq, body, dl, ⟨p, c, g1, g2⟩, rfl⟩
    · exact .inl rfl
    · refine .inr ⟨hq, body, dl, .inl ⟨calls, ev, now, p, c, List.prefix_rfl, ?_, g2⟩, rfl⟩
      simp only [Ep.step]
      rw [g1]
  have hal := hc.alike
  obtain ⟨g1, g2, g3, g4⟩ := h3.commit hev hr hc
  have hm : ∀ body, Ans cfg env T e0 (calls ++ [(some x, .streamEvent (.payload ev) now)]) x s0 b body →
      Ans cfg env T e0 (calls ++ [(some x, .streamEvent (.payload ev) now)]) x s0 b' body :=
    fun _ hb => hb.imp id (fun hb => hb.mono (by rw [g2]) hal.label hal.skip hal.max hal.cmp)
  refine ⟨⟨hal.id.trans h.id_, hal.label.trans h.label, hal.skip.trans h.skip, hal.max.trans h.max, s0, op, n + 1, h1,
    by rw [hal.eager]; exact h2, g1, (h4.commit hev hc).1, (h5.mono hm).commit h4 hev hc',
    (h6.mono hm).commit h4 hev hc', by rw [hal.eager]; exact h7⟩, ⟨by rw [g2], by rw [g3]; exact id, hal.eager⟩, ?_⟩
  obtain ⟨s1, op1, n1, k1, k2, k3, _⟩ := h.source
  obtain ⟨_, _, _, k4⟩ := k3.commit hev hr hc
  refine ⟨s1, op1, k1, by rw [hal.eager]; exact k2, ?_⟩
  rw [g2, g3, ← h.label, ← h.skip, ← h.max]
  exact k4

/-- No payload is handed over by these calls. -/
def Quiet_ (l : List (Option Nat × Ep.Op I A)) : Prop := ∀ o ev now, (o, Ep.Op.streamEvent (.payload ev) now) ∉ l

/-- The endpoint is driven by the calls alone, and what it is told has a source. -/
structure WireInv (cfg : Cfg I A) (env : Env I A) (X : QCfg) (T : TEnv) (e0 : Ep I A) (s : Quic I Q) : Prop where
  ep : s.ep = e0.run cfg env (s.calls.map Prod.snd)
  live : ∀ x b, s.bridges.get? x = some b → Carried cfg env X T e0 s.calls x b
  past : ∀ b ∈ s.gone, Carried cfg env X T e0 s.calls b.stream.id b
  told : ∀ o ev now, (o, Ep.Op.streamEvent (.payload ev) now) ∈ s.calls →
    ∃ x b, o = some x ∧ Carries s x b ∧ Source cfg env X T e0 s.calls x b ev

theorem WireInv.step {e0 : Ep I A} {a s : Quic I Q} (h : WireInv cfg env X T e0 a) (l : List (Option Nat × Ep.Op I A))
    (h1 : s.calls = a.calls ++ l) (h2 : s.ep = a.ep.run cfg env (l.map Prod.snd))
    (hlive : ∀ x b, s.bridges.get? x = some b → Carried cfg env X T e0 s.calls x b)
    (hpast : ∀ b ∈ s.gone, Carried cfg env X T e0 s.calls b.stream.id b)
    (hlater : ∀ x b, Carries a x b → ∃ b', Carries s x b' ∧ Later b b')
    (hnew : ∀ o ev now, (o, Ep.Op.streamEvent (.payload ev) now) ∈ l →
      ∃ x b, o = some x ∧ Carries s x b ∧ Source cfg env X T e0 s.calls x b ev) : WireInv cfg env X T e0 s := by
  refine ⟨?_, hlive, hpast, fun o ev now hm => ?_⟩
  · rw [h1, List.map_append, Ep.run_append, ← h.ep, h2]
  · rw [h1] at hm
    rcases List.mem_append.1 hm with hm | hm
    · obtain ⟨x, b, g1, g2, g3⟩ := h.told o ev now hm
      obtain ⟨b', k1, k2⟩ := hlater x b g2
      exact ⟨x, b', g1, k1, by rw [h1]; exact g3.mono l k2⟩
    · exact hnew o ev now hm

theorem WireInv.quiet {e0 : Ep I A} {a s : Quic I Q} (h : WireInv cfg env X T e0 a) (l : List (Option Nat × Ep.Op I A))
    (h1 : s.calls = a.calls ++ l) (h2 : s.ep = a.ep.run cfg env (l.map Prod.snd)) (h3 : s.bridges = a.bridges)
    (h4 : s.gone = a.gone) (h5 : Quiet_ l) : WireInv cfg env X T e0 s := by
  refine h.step l h1 h2 (fun x b hb => ?_) (fun b hb => ?_) (fun x b hb => ⟨b, ?_, .refl b⟩) (fun o ev now hm => absurd hm (h5 o ev now))
  · rw [h3] at hb; rw [h1]; exact (h.live x b hb).mono l
  · rw [h4] at hb; rw [h1]; exact (h.past b hb).mono l
  · unfold Carries; rw [h3, h4]; exact hb

theorem WireInv.put {e0 : Ep I A} {a s : Quic I Q} (h : WireInv cfg env X T e0 a) (l : List (Option Nat × Ep.Op I A))
    {id : Nat} {b' : QBridge I A}
    (h1 : s.calls = a.calls ++ l) (h2 : s.ep = a.ep.run cfg env (l.map Prod.snd)) (h3 : s.bridges = a.bridges.insert id b')
    (h4 : s.gone = a.gone) (hc : Carried cfg env X T e0 s.calls id b')
    (hold : ∀ b, a.bridges.get? id = some b → Later b b')
    (hnew : ∀ o ev now, (o, Ep.Op.streamEvent (.payload ev) now) ∈ l → o = some id ∧ Source cfg env X T e0 s.calls id b' ev) :
    WireInv cfg env X T e0 s := by
  have hat : s.bridges.get? id = some b' := by rw [h3, get?_insert_self]
  refine h.step l h1 h2 (fun x b hb => ?_) (fun b hb => ?_) (fun x b hb => ?_) (fun o ev now hm => ?_)
  · rw [h3, get?_insert] at hb
    split at hb
    · next e => injection hb with hb; subst hb; subst e; exact hc
    · rw [h1]; exact (h.live x b hb).mono l
  · rw [h4] at hb; rw [h1]; exact (h.past b hb).mono l
  · rcases hb with hb | hb
    · by_cases e : id = x
      · subst e; exact ⟨b', .inl hat, hold b hb⟩
      · exact ⟨b, .inl (by rw [h3, get?_insert, if_neg e]; exact hb), .refl b⟩
    · exact ⟨b, .inr (by rw [h4]; exact hb), .refl b⟩
  · obtain ⟨g1, g2⟩ := hnew o ev now hm
    exact ⟨id, b', g1, .inl hat, g2⟩

/-! ### The end of a bridge -/

omit [DecidableEq I] in
theorem preReap_gone (s : Quic I Q) {id : Nat} {b : QBridge I A} (ch : Nat) (lost : Bool) (hb : s.bridges.get? id = some b) :
    (s.preReap id b ch lost).gone = s.gone ++ [b] := by
  have hf : ∀ s : Quic I Q, (s.freeSlot ch).gone = s.gone := by intro s; unfold freeSlot; split <;> rfl
  have hu : ∀ (s : Quic I Q) k, (s.unslot ch k).gone = s.gone := by
    intro s k; unfold unslot; split
    · rfl
    · dsimp only; split <;> rfl
  have h0 : (s.unindex id ch b.sid).gone = s.gone ++ [b] := by
    show s.gone ++ (s.bridges.get? id).toList = _
    rw [hb]; rfl
  unfold preReap
  dsimp only
  cases b.eager <;> cases lost <;> simp [hf, hu, h0]

theorem accepted_phase {e : Ep I A} {src : A} {now : Nat} {st : Stream I A}
    (h : (e.step cfg env (.acceptStream src now)).2 = .stream (some st)) : st.phase = .inAwaiting ∧ st.outputBuf = [] := by
  simp only [Ep.step] at h
  injection h with h
  unfold Ep.acceptStream at h
  split at h
  · cases h
  · injection h with h
    subst h
    exact ⟨rfl, rfl⟩

theorem WireInv.move {e0 : Ep I A} {a b : Quic I Q} (h : WireInv cfg env X T e0 a) (hi : IdsInv cfg env X [] a)
    (hm : Move cfg env X T a b) : WireInv cfg env X T e0 b := by
  have z : ∀ {b : Quic I Q}, b.calls = a.calls → b.ep = a.ep → b.bridges = a.bridges → b.gone = a.gone →
      WireInv cfg env X T e0 b :=
    fun h1 h2 h3 h4 => h.quiet [] (by rw [h1, List.append_nil]) h2 h3 h4 (by intro _ _ _ h; cases h)
  have one : ∀ {b : Quic I Q} (x : Option Nat) (op : Ep.Op I A), (∀ ev now, op ≠ .streamEvent (.payload ev) now) →
      b.calls = a.calls ++ [(x, op)] → b.ep = (a.ep.step cfg env op).1 → b.bridges = a.bridges → b.gone = a.gone →
      WireInv cfg env X T e0 b :=
    fun x op h0 h1 h2 h3 h4 => h.quiet [(x, op)] h1 h2 h3 h4 (by
      intro o ev now hm
      rw [List.mem_singleton] at hm
      injection hm with _ hm
      exact h0 ev now hm.symm)
  cases hm with
  | push src bytes => refine z ?_ ?_ ?_ ?_ <;> unfold pushIngress <;> split <;> rfl
  | call x op hp =>
    refine one x op ?_ rfl rfl rfl rfl
    rintro ev now rfl; exact hp.elim
  | noop x op he hx hpay => exact one x op (fun ev now => hpay _ now) rfl rfl rfl rfl
  | @commit id b0 ev rest b' now hb hev hr hb' =>
    obtain ⟨g1, g2, g3⟩ := (h.live id b0 hb).commit hev hr (by rw [← h.ep]; exact hb')
    refine h.put [(some id, .streamEvent (.payload ev) now)] rfl rfl rfl rfl g1 (fun b1 h1 => ?_) (fun o ev' now' hm => ?_)
    · rw [hb] at h1; injection h1 with h1; subst h1; exact g2
    · rw [List.mem_singleton] at hm
      injection hm with h1 h2
      injection h2 with h2 _
      injection h2 with h2
      subst h2
      exact ⟨h1, g3.mono _ (.refl _)⟩
  | @tweak id b0 b' hb hmv =>
    refine h.put [] (List.append_nil _).symm rfl rfl rfl ((h.live id b0 hb).move hmv) (fun b1 h1 => ?_) (by intro _ _ _ h; cases h)
    rw [hb] at h1; injection h1 with h1; subst h1; exact hmv.later
  | sieve _ => unfold takeDials; refine one none .sieveDials (by intros; simp) ?_ ?_ ?_ ?_ <;> rw [sieve_eq] <;> rfl
  | pollDial id peer deadline hp => unfold setTimer; refine one none .pollEvent (by intros; simp) ?_ ?_ ?_ ?_ <;> rw [queueDial_eq] <;> rfl
  | pollOther _ => exact one none .pollEvent (by intros; simp) rfl rfl rfl rfl
  | takeEntry d rest _ _ => refine z ?_ ?_ ?_ ?_ <;> rw [takeEntry_eq]
  | repark d now _ => obtain ⟨w, hw⟩ := repark_eq (X := X) a d now; refine z ?_ ?_ ?_ ?_ <;> rw [hw]
  | retire d hl =>
    rw [retire_eq]
    refine h.quiet (a.lastWords d.id) rfl ?_ rfl rfl ?_
    · unfold Ep.run
      rw [List.foldl_map]
    · intro o ev now hm
      unfold lastWords at hm
      split at hm <;> simp at hm
  | mint d now ch sid e t st hl hd he hc ht' hst =>
    obtain ⟨h1, _, _⟩ := minted_facts hst
    have hdm : d ∈ a.entries := by rw [entries_some hl]; simp
    have hlife := (Coord.opened_life (mint := .outbound d.id) hst).1
    obtain ⟨k, hph, _⟩ := minted_kind hst
    generalize hs' : ((({ a with pool := { (a.pool.dial Q X.caps now d.peer).1 with table := t } } : Quic I Q).callEp cfg env
        (some d.id) (.dialSucceeded d.id now)).1.mintDialled cfg X st ch sid) = s'
    have e1 : s'.calls = a.calls ++ [(some d.id, .dialSucceeded d.id now)] := by rw [← hs']; rfl
    have e2 : s'.ep = (a.ep.step cfg env (.dialSucceeded d.id now)).1 := by rw [← hs']; rfl
    have e3 : s'.gone = a.gone := by rw [← hs']; rfl
    obtain ⟨k', e4⟩ : ∃ k', s'.bridges = a.bridges.insert st.id { QBridge.new st ch sid a.cmp cfg.maxStreamFrameSize X.label X.skipLabel true with slot := k' } := by
      rw [← hs']; exact ⟨_, rfl⟩
    rw [h1] at e4
    refine h.put [(some d.id, .dialSucceeded d.id now)] e1 e2 e4 e3 ⟨h1, rfl, rfl, rfl, st, .dialSucceeded d.id now, 0, ?_, ⟨rfl, rfl⟩, ?_,
      new_life hlife rfl, .new _ _ _ _ _ _ _ _ (fun _ => ⟨k, hph⟩) (by simp), by (intro _ _ g; cases g), by (intro g; cases g)⟩ (fun b1 hb1 => ?_) (by simp)
    · exact ⟨h1, a.calls, _, by rw [e1], by rw [← h.ep]; exact hst⟩
    · exact heard_new (Coord.fed_opened hst) _ _ _ _ _ _ _ _
    · exact absurd (mem_keys.2 ⟨b1, mem_of_get? hb1⟩) (hi.apart hdm)
  | accept ch sid now e st hh' hd he hc hst =>
    obtain ⟨h1, _⟩ := accepted_facts hst
    have hlife := (Coord.opened_life (mint := .inbound e.peer) hst).1
    generalize hs' : (a.callEp cfg env none (.acceptStream e.peer now)).1.openBridge cfg X st ch sid false = s'
    have e1 : s'.calls = a.calls ++ [(none, .acceptStream e.peer now)] := by rw [← hs']; rfl
    have e2 : s'.ep = (a.ep.step cfg env (.acceptStream e.peer now)).1 := by rw [← hs']; rfl
    have e3 : s'.gone = a.gone := by rw [← hs']; rfl
    obtain ⟨k', e4⟩ : ∃ k', s'.bridges = a.bridges.insert st.id { QBridge.new st ch sid a.cmp cfg.maxStreamFrameSize X.label X.skipLabel false with slot := k' } := by
      rw [← hs']; exact ⟨_, rfl⟩
    refine h.put [(none, .acceptStream e.peer now)] e1 e2 e4 e3 ⟨rfl, rfl, rfl, rfl, st, .acceptStream e.peer now, 0, ?_, rfl, ?_,
      new_life hlife rfl, .new _ _ _ _ _ _ _ _ (by simp) (fun _ => (accepted_phase hst).1),
      fun _ _ _ => .inl (accepted_phase hst).2, fun _ => (accepted_phase hst).1⟩ (fun b1 hb1 => ?_) (by simp)
    · exact ⟨rfl, a.calls, _, by rw [e1], by rw [← h.ep]; exact hst⟩
    · exact heard_new (Coord.fed_opened hst) _ _ _ _ _ _ _ _
    · rw [h1] at hb1
      exact absurd (List.mem_append_right _ (mem_keys.2 ⟨b1, mem_of_get? hb1⟩)) hi.fresh
  | launch op id peer deadline kind hh' hl hs _ =>
    rw [launch_eq]
    refine one none op ?_ rfl rfl rfl rfl
    intro ev now
    cases hs <;> simp
  | inert peer kind now hn =>
    refine h.quiet [(none, .startPushPullDirect peer kind now),
      (some (a.ep.startPushPullDirect cfg env peer kind now).2.1, .external (some ⟨(a.ep.startPushPullDirect cfg env peer kind now).2.1, peer, false, .pushPull⟩))]
      ?_ rfl rfl rfl (by intro _ _ _ hm; simp at hm)
    show a.calls ++ [_] ++ [_] = _
    rw [List.append_assoc]; rfl
  | burn pid peer seq deadline hn => exact one none _ (by intros; simp) rfl rfl rfl rfl
  | reap id ch b0 lost hb ht' hev hl =>
    obtain ⟨r1, r2, r3, r4, r5, r6, _⟩ := preReap_rest (X := X) a id b0 ch lost
    have r7 := preReap_gone a ch lost hb
    obtain ⟨l, g1, g2, g3, g4, g5⟩ : ∃ l, (a.reapBridge cfg env id b0 ch lost).calls = a.calls ++ l ∧
        (a.reapBridge cfg env id b0 ch lost).ep = a.ep.run cfg env (l.map Prod.snd) ∧
        (a.reapBridge cfg env id b0 ch lost).bridges = (a.preReap id b0 ch lost).bridges ∧
        (a.reapBridge cfg env id b0 ch lost).gone = (a.preReap id b0 ch lost).gone ∧ Quiet_ l := by
      rw [reapBridge_pre]
      rcases complete_cases (cfg := cfg) (env := env) (a.preReap id b0 ch lost) id (!b0.isFailed) with
        ⟨_, h2⟩ | ⟨k, _, _, h2⟩ | ⟨k, p, h1, _, h2⟩ <;> rw [h2]
      · exact ⟨[], by rw [r4, List.append_nil], r3, rfl, rfl, by (intro _ _ _ h; cases h)⟩
      · exact ⟨[], by dsimp only; rw [r4, List.append_nil], r3, rfl, rfl, by (intro _ _ _ h; cases h)⟩
      · refine ⟨[(some id, .external (some ⟨id, p, !b0.isFailed, k⟩))], by dsimp only; rw [r4], ?_, rfl, rfl, by (intro _ _ _ h; simp at h)⟩
        dsimp only
        rw [r3]; rfl
    generalize a.reapBridge cfg env id b0 ch lost = s' at *
    have hlater : ∀ x b, Carries a x b → ∃ b', Carries s' x b' ∧ Later b b' := by
      intro x b hb'
      rcases hb' with hb' | ⟨hb', hx⟩
      · by_cases e : id = x
        · subst e
          rw [hb] at hb'; injection hb' with hb'; subst hb'
          exact ⟨b0, .inr ⟨by rw [g4, r7]; simp, (h.live id b0 hb).id_⟩, .refl b0⟩
        · obtain ⟨k, hk⟩ := r6 x
          refine ⟨{ b with slot := k b }, .inl ?_, ⟨List.prefix_rfl, fun h => h, rfl⟩⟩
          rw [g3, hk, get?_erase, if_neg e, hb']; rfl
      · exact ⟨b, .inr ⟨by rw [g4, r7]; exact List.mem_append_left _ hb', hx⟩, .refl b⟩
    refine h.step l g1 g2 (fun x b hx => ?_) (fun b hx => ?_) hlater (fun o ev now hm => absurd hm (g5 o ev now))
    · obtain ⟨k, hk⟩ := r6 x
      rw [g3, hk, get?_erase] at hx
      split at hx
      · cases hx
      · cases hg : a.bridges.get? x with
        | none => rw [hg] at hx; cases hx
        | some b2 =>
          rw [hg] at hx
          injection hx with hx
          subst hx
          rw [g1]
          exact ((h.live x b2 hg).slot _).mono l
    · rw [g4, r7] at hx
      rw [g1]
      rcases List.mem_append.1 hx with hx | hx
      · exact (h.past b hx).mono l
      · rw [List.mem_singleton] at hx
        subst hx
        have := h.live id b hb
        rw [this.id_]
        exact this.mono l
  | _ => exact z rfl rfl rfl rfl

/-- Only the queue of received datagrams changed. -/
theorem WireInv.queue {e0 : Ep I A} {s s' : Quic I Q} (h : WireInv cfg env X T e0 s)
    (hs : ∃ ring ingress perPeer, s' = { s with ring := ring, ingress := ingress, perPeer := perPeer }) :
    WireInv cfg env X T e0 s' := by
  obtain ⟨ring, ingress, perPeer, rfl⟩ := hs
  exact ⟨h.ep, h.live, h.past, h.told⟩

theorem wire_run (hS : Q.Sound) {t0 : Nat} {e0 : Ep I A} (hnew : Ep.tryNew cfg env t0 = .ok e0) (q : Q.E) (cmp : CmpOptions)
    (ops : List (QOp I A)) : WireInv cfg env X T e0 ((Quic.new e0 q cmp : Quic I Q).run cfg env X T ops) := by
  have h0 : NodeInv cfg env X (Quic.new e0 q cmp : Quic I Q) ∧ WireInv cfg env X T e0 (Quic.new e0 q cmp : Quic I Q) := by
    refine ⟨.new hnew q cmp, rfl, ?_, ?_, ?_⟩
    · intro id b hb; cases hb
    · intro b hb; cases hb
    · intro _ _ _ h; cases h
  refine (run_inv (P := fun s => NodeInv cfg env X s ∧ WireInv cfg env X T e0 s) hS (fun _ _ h hm => ⟨h.1.move hS hm, h.2.move h.1.ids hm⟩)
    (fun s h => ⟨h.1.pull, h.2.queue ?_⟩)
    (fun s ring h => ⟨h.1.wipe ring, h.2.queue ⟨_, _, _, rfl⟩⟩) ops (new_idle e0 q cmp) h0).1.2
  unfold pollIngress
  split <;> exact ⟨_, _, _, rfl⟩

end Quic
end Verif
