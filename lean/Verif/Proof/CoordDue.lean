import Verif.Proof.CoordMint
import Verif.Proof.CoordLife
/-
How long an exchange a peer opened can be held.
-/
namespace Verif
open Spec
namespace Coord
variable {I A : Type} [DecidableEq I] [DecidableEq A] {cfg : Cfg I A} {env : Env I A} {X : XCfg} {T : TEnv}

theorem bstep_live {b b' : Bridge I A} (h : BStep env T b b') (hb : b'.isTerminal = false) : b.isTerminal = false := by
  cases ht : b.isTerminal with
  | false => rfl
  | true =>
    exfalso
    cases h with
    | replay now =>
      have e : b.replay env.CI env.CA T now = b := by
        unfold Bridge.replay
        split
        · rfl
        · split
          · rfl
          · simp [Bridge.pumpIn, ht]
      rw [e, ht] at hb; cases hb
    | pumpOut now => rw [Bridge.pumpOut_terminal now ht] at hb; cases hb

theorem commitOne_live {cmp : CmpOptions} {now : Nat} {e : Ep I A} {b : Bridge I A} {s : Stream I A}
    {ev : PayloadEvent I A} {rest : List (PayloadEvent I A)} {r : Ep I A × Bridge I A}
    (hc : Bridge.CommitOne cfg env T cmp now e b s ev rest r) (hr : r.2.isTerminal = false) : b.isTerminal = false := by
  cases ht : b.isTerminal with
  | false => rfl
  | true =>
    exfalso
    have ht' : ∀ {b' : Bridge I A}, b'.phase = b.phase → b'.isTerminal = true := by
      intro b' h
      rw [← ht]; unfold Bridge.isTerminal; rw [h]
    cases hc with
    | quiet => exact absurd ((ht' rfl).symm.trans hr) (by simp)
    | respond e' p b' _ hp =>
      generalize hq : ({ b with
        stream := some (({ s with endpointEvents := rest } : Stream I A).loadResponse
          (compressPayload T.B cmp (Ep.encodeBytes env (.pushPull p))) (now + cfg.streamTimeout))
        precompressed := true
        deadline := now + cfg.streamTimeout } : Bridge I A) = q at hp
      have hqt : q.isTerminal = true := by subst hq; exact ht
      exact absurd ((hp.terminal hqt).symm.trans hr) (by simp)
    | close => exact absurd ((Bridge.terminal_of_failed (Bridge.failWithRetire_failed _ _)).symm.trans hr) (by simp)

/-- What a peer's exchange may still take: it is due by `B` until it has a stream, and each of the stream and the
payload it brings moves that by the stream timeout. -/
def VDue (cfg : Cfg I A) (B : Nat) (v : XV I A) : Prop :=
  v.born = true ∧ (∀ m, v.info = some m → m.outbound = false) ∧
  ∀ b, v.br = some b → b.Paced ∧ (b.isTerminal = false →
    (b.stream = none → b.deadline ≤ B) ∧
    (b.stream ≠ none → b.deadline ≤ B + cfg.streamTimeout * (1 + (v.log.filterMap toldOf).length)))

/-- When a stream may be opened for exchange `x`. -/
def Timely (op : XOp I A) (x B t : Nat) (b : Bridge I A) : Prop :=
  instant op = some t ∧ (b.xid = x → b.stream = none → t ≤ B ∨ b.Swept t ∨ t < b.deadline)

theorem VDue.first {B x : Nat} {ring ring' : Option Keyring} {v v' : XV I A} {op : XOp I A} {em : List (XEmit A)}
    (h : VDue cfg B v) (hf : VFirst cfg env X T x ring v op em ring' v') : VDue cfg B v' := by
  obtain ⟨h1, h2, h3⟩ := h
  have go : ∀ (v' : XV I A) (f : Bridge I A → Bridge I A), v'.born = v.born → v'.log = v.log → v'.info = v.info →
      v'.br = v.br.map f → (∀ b, Bridge.Pace b (f b)) → (∀ b, (f b).stream = none ↔ b.stream = none) →
      (∀ b, (f b).isTerminal = false → b.isTerminal = false) → VDue cfg B v' := by
    intro v' f e1 e2 e3 e4 hp hn hl
    refine ⟨e1.trans h1, fun m hm => h2 m (by rw [← e3]; exact hm), fun b' hb' => ?_⟩
    rw [e4, Option.map_eq_some_iff] at hb'
    obtain ⟨b, hb, rfl⟩ := hb'
    refine ⟨(hp b).paced (h3 b hb).1, fun ht => ?_⟩
    have := (h3 b hb).2 (hl b ht)
    rw [(hp b).due, e2]
    exact ⟨fun h => this.1 ((hn b).1 h), fun h => this.2 (fun g => h ((hn b).2 g))⟩
  have same : ∀ (v' : XV I A), v'.born = v.born → v'.log = v.log → v'.info = v.info → v'.br = v.br → VDue cfg B v' :=
    fun v' e1 e2 e3 e4 => go v' id e1 e2 e3 (by rw [e4]; simp) (fun _ => .refl _) (fun _ => Iff.rfl) (fun _ h => h)
  cases hf with
  | keep => exact ⟨h1, h2, h3⟩
  | feed bytes eof now => exact go _ _ rfl rfl rfl rfl (fun b => Pace.feedAll b _ _ _) (fun b => (Kin.feedAll b _ _ _).nos) (fun b => feedAll_live)
  | dialFailed => exact go _ _ rfl rfl rfl rfl (fun b => .fail b _) (fun b => (Bridge.Kin.fail b _).nos) (fun b => fail_live)
  | transportError => exact go _ _ rfl rfl rfl rfl (fun b => .fail b _) (fun b => (Bridge.Kin.fail b _).nos) (fun b => fail_live)
  | leave => exact same _ rfl rfl rfl rfl
  | encrypt =>
    refine go _ _ rfl rfl rfl rfl (fun b => .setEncryption b ring') (fun b => (Bridge.Kin.fail { b with ring := ring' } _).nos) ?_
    exact fun b ht => fail_live (b := { b with ring := ring' }) ht
  | compress => exact go _ _ rfl rfl rfl rfl (fun b => .setCompression b _) (fun b => Iff.rfl) (fun _ h => h)
  | popOut => exact same _ rfl rfl rfl rfl
  | popConnect => exact same _ rfl rfl rfl rfl
  | popDown => exact same _ rfl rfl rfl rfl
  | accept src now cmp hb => rw [hb] at h1; cases h1

theorem VDue.step {L : Prop} {B x : Nat} {op : XOp I A} {ring : Option Keyring} {v v' : XV I A}
    (hok : VOk cfg x ring v) (hl : VLife x v) (h : VDue cfg B v)
    (hf : VStep cfg env X T (Timely op x B) L Meant x ring v v') : VDue cfg B v' := by
  obtain ⟨h1, h2, h3⟩ := h
  have hgone : ∀ (v' : XV I A), v'.born = v.born → v'.info = none → v'.br = none → VDue cfg B v' :=
    fun v' e1 e2 e3 => ⟨e1.trans h1, fun m hm => (by rw [e2] at hm; cases hm), fun b hb => (by rw [e3] at hb; cases hb)⟩
  have hgrow : ∀ (l : List (Ep.Op I A)), (v.log.filterMap toldOf).length ≤ ((v.log ++ l).filterMap toldOf).length := by
    intro l; simp [List.filterMap_append]
  have hmul : ∀ {n m : Nat}, n ≤ m → B + cfg.streamTimeout * (1 + n) ≤ B + cfg.streamTimeout * (1 + m) :=
    fun h => Nat.add_le_add_left (Nat.mul_le_mul_left _ (Nat.add_le_add_left h _)) _
  cases hf with
  | refl => exact ⟨h1, h2, h3⟩
  | call op' hp =>
    refine ⟨h1, h2, fun b hb => ⟨(h3 b hb).1, fun ht => ⟨((h3 b hb).2 ht).1, fun hs => ?_⟩⟩⟩
    exact Nat.le_trans (((h3 b hb).2 ht).2 hs) (hmul (hgrow _))
  | @bridge b b' hb hs =>
    refine ⟨h1, h2, fun b2 hb2 => ?_⟩
    cases hb2
    have hp := Pace.bstep hs
    refine ⟨hp.paced (h3 b hb).1, fun ht => ?_⟩
    have := (h3 b hb).2 (bstep_live hs ht)
    rw [hp.due]
    exact ⟨fun h => this.1 ((Kin.bstep hs).nos.1 h), fun h => this.2 (fun g => h ((Kin.bstep hs).nos.2 g))⟩
  | @commit b s ev rest r cmp e now hb hs he hlate hc hsw hN =>
    refine ⟨h1, h2, fun b2 hb2 => ?_⟩
    cases hb2
    obtain ⟨g1, g2⟩ := Bridge.commitOne_due hs hc
    refine ⟨g1 (h3 b hb).1, fun ht => ?_⟩
    have hbt := commitOne_live hc ht
    have hbd := ((h3 b hb).2 hbt).2 (by rw [hs]; simp)
    have hlen : ((v.log ++ [Ep.Op.streamEvent (.payload ev) now]).filterMap toldOf).length = (v.log.filterMap toldOf).length + 1 := by
      simp [List.filterMap_append, toldOf]
    refine ⟨fun hn => ?_, fun _ => ?_⟩
    · have := (Bridge.Kin.commitOne hs hc).nos.1 hn
      rw [hs] at this; cases this
    · simp only [hlen]
      rcases g2 with g2 | g2
      · rw [g2]; exact Nat.le_trans hbd (hmul (Nat.le_succ _))
      · rcases hsw with hsw | hsw
        · rw [hbt] at hsw; cases hsw
        · have hlt := hsw.due (h3 b hb).1 (by rw [hs]; simp)
          rw [g2]
          have e : cfg.streamTimeout * (1 + ((v.log.filterMap toldOf).length + 1)) =
              cfg.streamTimeout * (1 + (v.log.filterMap toldOf).length) + cfg.streamTimeout := by
            rw [← Nat.add_assoc, Nat.mul_succ]
          rw [e]; omega
  | @shutdown b m hb ht hf hi hfe =>
    refine ⟨h1, fun m' hm => ?_, h3⟩
    cases hm
    have := h2 m hi
    exact this
  | @collect b m hb hi =>
    refine ⟨h1, h2, fun b2 hb2 => ?_⟩
    cases hb2
    exact ⟨(Bridge.Pace.transmit b).paced (h3 b hb).1, fun ht => (h3 b hb).2 ht⟩
  | reapFailed => exact hgone _ rfl rfl rfl
  | reapClosed => exact hgone _ rfl rfl rfl
  | dial peer sid deadline cmp kind hb => rw [hb] at h1; cases h1
  | @mintOk b m mint s e now hb hi ht hh hmi hst hK hN =>
    refine ⟨h1, fun m' hm => ?_, fun b2 hb2 => ?_⟩
    · cases hm
      have := h2 m hi
      exact this
    · cases hb2
      have hsh := hok.br b m hb hi
      have hn := hsh.mint.1 (by rw [hmi]; rfl)
      obtain ⟨g1, g2, g3⟩ := minted_due hst
      have hd : s.deadline = some (now + cfg.streamTimeout) := by
        cases mint with
        | inbound peer => exact g3 peer rfl
        | outbound sid =>
          have := hsh.out sid hmi
          rw [h2 m hi] at this; cases this
      obtain ⟨g4, g5⟩ := promote_due (b := b) g1 hd
      refine ⟨g5, fun _ => ⟨fun hn2 => (by cases hn2), fun _ => ?_⟩⟩
      have hbd := ((h3 b hb).2 ht).1 hn
      have hB : now ≤ B := by
        rcases hN.2 hsh.xid hn with h | h | h
        · exact h
        · have := h.due (h3 b hb).1 (fun _ => by
            rcases hsh.idle hn with h | h
            · exact h
            · rw [Bridge.terminal_of_failed h] at ht; cases ht)
          omega
        · omega
      rw [g4]
      have : cfg.streamTimeout * 1 ≤ cfg.streamTimeout * (1 + ((v.log ++ [mintOp mint now]).filterMap toldOf).length) :=
        Nat.mul_le_mul_left _ (Nat.le_add_right _ _)
      simp only [Nat.mul_one] at this
      exact Nat.add_le_add hB this
  | mintOut => exact hgone _ rfl rfl rfl
  | mintIn => exact hgone _ rfl rfl rfl
  | cancel => exact hgone _ rfl rfl rfl

/-- One call keeps the bound, if it is made by `B` or a stream was already asked for. -/
theorem due_step {t0 : Nat} {e0 : Ep I A} (hnew : Ep.tryNew cfg env t0 = .ok e0) (cmp : CmpOptions)
    (ops : List (XOp I A)) (op : XOp I A) (x B : Nat) (hd : VDue cfg B (((Coord.new e0 cmp).run cfg env X T ops).view x))
    (hB : (∀ t, instant op = some t → t ≤ B) ∨ ReadyAt x ((Coord.new e0 cmp).run cfg env X T ops)) :
    VDue cfg B (((Coord.new e0 cmp).run cfg env X T (ops ++ [op])).view x) := by
  have hr0 := Ep.reachable_new hnew
  rw [xrun_snoc]
  have hs := shape_run (cfg := cfg) (env := env) (X := X) (T := T) e0 cmp ops
  have hk := kinded_run (cfg := cfg) (env := env) (X := X) (T := T) hnew cmp ops
  have hl := life_run (cfg := cfg) (env := env) (X := X) (T := T) hnew cmp ops x
  revert hd hs hk hl hB
  generalize (Coord.new e0 cmp).run cfg env X T ops = c
  intro hd hB hs hk hl
  obtain ⟨c1, h1, h2⟩ := step_moves_of (cfg := cfg) (env := env) (X := X) (T := T) (N := Timely op x B) c op
    (fun now hi => ⟨fun b hb => ⟨hi, fun _ hn => absurd hn hb⟩, fun b hb => ⟨hi, fun _ _ => .inr (.inl hb)⟩,
      fun b hb => ⟨hi, fun _ _ => .inr (.inr hb)⟩⟩)
    (fun now hi y b hy _ ht hh => ⟨hi, fun hx hn => by
      rcases hB with hB | hB
      · exact .inl (hB now hi)
      · obtain ⟨m, hm⟩ := hs.meta_of hy
        have e := (hs.br y b m hy hm).xid
        rw [hx] at e
        subst e
        rw [hB b hy hn ht] at hh; cases hh⟩)
  have hv := view_first hs h1 x
  have h5 : Shape cfg env e0 (c.step cfg env X T op).1 ∧ Kinded (c.step cfg env X T op).1 ∧
      VLife x ((c.step cfg env X T op).1.view x) ∧ VDue cfg B ((c.step cfg env X T op).1.view x) := by
    refine h2.inv (P := fun c' => Shape cfg env e0 c' ∧ Kinded c' ∧ VLife x (c'.view x) ∧ VDue cfg B (c'.view x)) ?_
      ⟨hs.first h1 (order_mem T), hk.first hs h1, hl.first (vok hs x) hv, hd.first hv⟩
    rintro c' c'' hmv ⟨g1, g2, g3, g4⟩
    have hst := view_move g1 hmv (fun y m mint s now h1 h2 h3 => g2.meant h1 h2 h3) x
    exact ⟨g1.move hmv, g2.move hr0 g1 hmv, g3.step (vok g1 x) hst, g4.step (vok g1 x) g3 hst⟩
  exact h5.2.2.2

end Coord
end Verif
