import Verif.Proof.CoordView
import Verif.Proof.Dials
import Verif.Spec.Membership
/-
The kind an exchange is reported under is the kind of request it was started for.
-/
namespace Verif
open Spec
namespace Coord
variable {I A : Type}

/-- The stream was opened for a request of this kind. -/
def KindFits : OutKind → ExKind → Prop
  | .pushPull _, .pushPull => True
  | .reliablePing _, .reliablePing => True
  | .userMessage, .userMessage => True
  | _, _ => False

/-- The request that waits under the id, if any, is of this kind, and the id is not free any more. -/
def Wants (e : Ep I A) (sid : Nat) (kind : ExKind) : Prop :=
  sid < e.net.nextStreamId ∧ ∀ i, e.net.intents.get? sid = some i → KindFits i.kind kind

/-- What is known of the stream minted for an exchange: it serves the kind of request the exchange is reported under. -/
def Meant (m : XMeta A) (s : Stream I A) : Prop :=
  ∀ kind, m.kind = some kind → ∃ k, s.phase = .outSending k ∧ KindFits k kind

variable [DecidableEq I] [DecidableEq A] {cfg : Cfg I A} {env : Env I A} {X : XCfg} {T : TEnv} {N : Nat → Bridge I A → Prop} {L : Prop}

theorem Wants.mono {e e' : Ep I A} {sid : Nat} {kind : ExKind} (h : Wants e sid kind) (hi : Ep.IdsStep e e') :
    Wants e' sid kind :=
  ⟨Nat.lt_of_lt_of_le h.1 hi.mono, fun i hw => h.2 i (hi.old sid i h.1 hw)⟩

theorem starts_wants {e : Ep I A} (hr : Reachable cfg env e) {op : Ep.Op I A} {sid : Nat} {kind : ExKind}
    (h : Starts cfg env e op sid kind) : Wants (e.step cfg env op).1 sid kind := by
  have fresh : ∀ i, e.net.intents.get? e.net.nextStreamId = some i → False := fun i hi =>
    absurd ((Ep.reachable_netOk hr).ids _ _ hi).2 (Nat.lt_irrefl _)
  cases h with
  | pushPull peer k now =>
    simp only [Ep.step, Wants]
    unfold Ep.startPushPull Ep.startPushPullDirect
    simp only []
    split
    · exact ⟨Nat.lt_succ_self _, fun i hi => (fresh i hi).elim⟩
    · refine ⟨Nat.lt_succ_self _, fun i hi => ?_⟩
      simp only [Ep.requestDial, Ep.pushEvent, Ep.insertIntent, Map.get?_insert, if_true, Option.some.injEq] at hi
      subst hi; trivial
  | reliablePing pid peer seq d =>
    simp only [Ep.step, Wants]
    unfold Ep.startReliablePing Ep.startReliablePingDirect
    simp only []
    split
    · exact ⟨Nat.lt_succ_self _, fun i hi => (fresh i hi).elim⟩
    · refine ⟨Nat.lt_succ_self _, fun i hi => ?_⟩
      simp only [Ep.requestDial, Ep.pushEvent, Ep.insertIntent, Map.get?_insert, if_true, Option.some.injEq] at hi
      subst hi; trivial
  | userMessage peer payload now sid hs =>
    simp only [Ep.step, Wants]
    revert hs
    unfold Ep.startUserMessage Ep.startUserMessageDirect
    split
    · next h => 
      split at h <;> simp at h
      simp
    · next e' id d h =>
      intro hs
      cases hs
      split at h
      · simp at h
      · simp only [Prod.mk.injEq, Except.ok.injEq] at h
        obtain ⟨rfl, rfl, rfl⟩ := h
        refine ⟨Nat.lt_succ_self _, fun i hi => ?_⟩
        simp only [Ep.requestDial, Ep.pushEvent, Ep.insertIntent, Map.get?_insert, if_true, Option.some.injEq] at hi
        subst hi; trivial

/-- Every kind the coordinator has noted fits the request it was noted for. -/
structure Kinded (c : Coord I A) : Prop where
  stash : ∀ sid kind, c.kinds.get? sid = some kind → Wants c.ep sid kind
  metas : ∀ x m sid kind, c.metas.get? x = some m → m.mint = some (.outbound sid) → m.kind = some kind →
    Wants c.ep sid kind
  inb : ∀ x m peer, c.metas.get? x = some m → m.mint = some (.inbound peer) → m.kind = none

theorem complete_kinds (c : Coord I A) (x : Nat) (m : Option (XMeta A)) (ok : Bool) :
    (c.complete cfg env x m ok).kinds = c.kinds := by
  unfold complete
  split
  · rfl
  · split <;> rfl

theorem collect_kinds (c : Coord I A) (x : Nat) (b : Bridge I A) : (c.collect x b).1.kinds = c.kinds := by
  unfold collect
  split
  · rfl
  · split <;> rfl

theorem reap_kinds (c : Coord I A) (x : Nat) (b : Bridge I A) : (c.reap cfg env x b).kinds = c.kinds := by
  unfold reap
  have h1 : (if b.isFailed = true then c.purge x else (c.collect x b).1).kinds = c.kinds := by
    split
    · rfl
    · exact collect_kinds c x b
  simp only []
  generalize (if b.isFailed = true then c.purge x else (c.collect x b).1) = c1 at h1
  simp only [teardown]
  split
  · simp only [callEp, complete_kinds]; exact h1
  · rw [complete_kinds]; exact h1

theorem move_ext {c c' : Coord I A} (hm : Move cfg env X T N L c c') :
    (∃ l, c'.calls = c.calls ++ l) ∧ ∀ sid kind, c'.kinds.get? sid = some kind → c.kinds.get? sid = some kind ∨
      ∃ op, Starts cfg env c.ep op sid kind ∧ c'.ep = (c.ep.step cfg env op).1 := by
  have nil : ∃ l, c.calls = c.calls ++ l := ⟨[], by simp⟩
  cases hm with
  | book s => exact ⟨by rw [s.calls]; exact nil, fun sid kind h => .inl (s.kinds sid kind h)⟩
  | call y op hp => exact ⟨⟨_, rfl⟩, fun _ _ h => .inl h⟩
  | start op sid kind hst =>
    refine ⟨⟨_, rfl⟩, fun sid' kind' h => ?_⟩
    simp only [Map.get?_insert] at h
    split at h
    · next e => subst e; cases h; exact .inr ⟨op, hst, rfl⟩
    · exact .inl h
  | bridge => exact ⟨nil, fun _ _ h => .inl h⟩
  | commit => exact ⟨⟨_, rfl⟩, fun _ _ h => .inl h⟩
  | @shutdown x b =>
    unfold maybeShutdown
    split
    · exact ⟨nil, fun _ _ h => .inl h⟩
    · split
      · exact ⟨nil, fun _ _ h => .inl h⟩
      · split <;> exact ⟨nil, fun _ _ h => .inl h⟩
  | @collect x b =>
    refine ⟨⟨[], ?_⟩, fun _ _ h => .inl ?_⟩
    · rw [List.append_nil]; exact (collect_calls c x b).1
    · simp only [put, collect_kinds] at h; exact h
  | @reap x b =>
    obtain ⟨l, h, _⟩ := reap_calls (cfg := cfg) (env := env) c x b
    exact ⟨⟨l, h⟩, fun _ _ h => .inl (by rw [reap_kinds] at h; exact h)⟩
  | dial now d hr =>
    rcases dialOne_cases (cfg := cfg) (env := env) (X := X) now c d with ⟨e, _⟩ | ⟨e, _⟩ <;> rw [e]
    · exact ⟨⟨_, rfl⟩, fun _ _ h => .inl (erase_some h)⟩
    · exact ⟨nil, fun _ _ h => .inl (erase_some h)⟩
  | mintOk => exact ⟨⟨_, rfl⟩, fun _ _ h => .inl h⟩
  | @mintOut x b m sid now =>
    unfold retireDial
    simp only [teardown, complete_kinds]
    obtain ⟨l, h, _⟩ := complete_calls (cfg := cfg) (env := env)
      ({ ((c.takeMint cfg env x m (.outbound sid) now).1.purge x).purgeConnect x with
        conns := (((c.takeMint cfg env x m (.outbound sid) now).1.purge x).purgeConnect x).conns.erase x
        metas := (((c.takeMint cfg env x m (.outbound sid) now).1.purge x).purgeConnect x).metas.erase x } : Coord I A)
      x ((((c.takeMint cfg env x m (.outbound sid) now).1.purge x).purgeConnect x).metas.get? x) false
    refine ⟨⟨[(some x, mintOp (.outbound sid) now)] ++ l, ?_⟩, fun _ _ h => .inl h⟩
    rw [h, ← List.append_assoc]; rfl
  | mintIn => exact ⟨⟨_, rfl⟩, fun _ _ h => .inl h⟩
  | cancel => exact ⟨nil, fun _ _ h => .inl h⟩

theorem move_nextX {c c' : Coord I A} (hm : Move cfg env X T N L c c') :
    c'.nextX = c.nextX ∨ ∃ now d, c.ep.isRunning = true ∧ c' = c.dialOne cfg env X now d := by
  cases hm with
  | book s => exact .inl s.nextX
  | @shutdown x b =>
    unfold maybeShutdown
    split
    · exact .inl rfl
    · split
      · exact .inl rfl
      · split <;> exact .inl rfl
  | @collect x b => exact .inl (collect_nextX c x b)
  | @reap x b =>
    obtain ⟨_, _, _, _, h⟩ := reap_calls (cfg := cfg) (env := env) c x b
    exact .inl h
  | dial now d hr => exact .inr ⟨now, d, hr, rfl⟩
  | mintOut now => unfold retireDial; exact .inl (complete_nextX _ _ _ _)
  | _ => exact .inl rfl

theorem Kinded.move {e0 : Ep I A} (h0 : Reachable cfg env e0) {c c' : Coord I A} (hs : Shape cfg env e0 c)
    (hm : Move cfg env X T N L c c') (h : Kinded c) : Kinded c' := by
  have hr : Reachable cfg env c.ep := by rw [hs.ep]; exact Ep.reachable_run h0 _
  have hs' := hs.move hm
  have hi : Ep.IdsStep c.ep c'.ep := by
    obtain ⟨l, hl⟩ := (move_ext hm).1
    have : c'.ep = c.ep.run cfg env (l.map Prod.snd) := by
      rw [hs'.ep, hl, List.map_append, Ep.run_append, ← hs.ep]
    rw [this]; exact Ep.run_ids hr _
  have hw : ∀ {sid kind}, Wants c.ep sid kind → Wants c'.ep sid kind := fun w => w.mono hi
  have hm' : ∀ x m', c'.metas.get? x = some m' → (∃ m, c.metas.get? x = some m ∧ m'.kind = m.kind ∧
      (m'.mint = m.mint ∨ m'.mint = none)) ∨ (∃ sid, m'.mint = some (.outbound sid) ∧ ∀ kind, m'.kind = some kind →
        Wants c'.ep sid kind) := by
    intro x m' hx
    by_cases hd : ∃ now d, c.ep.isRunning = true ∧ c' = c.dialOne cfg env X now d
    · obtain ⟨now, d, hrun, rfl⟩ := hd
      rcases dialOne_cases (cfg := cfg) (env := env) (X := X) now c d with ⟨e, _⟩ | ⟨e, _⟩
      · rw [e] at hx; exact .inl ⟨m', hx, rfl, .inl rfl⟩
      · rw [e] at hx hw ⊢
        simp only [Map.get?_insert] at hx
        split at hx
        · cases hx
          exact .inr ⟨d.1, rfl, fun kind hk => hw (h.stash _ _ hk)⟩
        · exact .inl ⟨m', hx, rfl, .inl rfl⟩
    · have hv := view_move (K := fun _ _ => True) hs hm (fun _ _ _ _ _ _ _ _ => trivial) x
      have hb : (c'.view x).born = (c.view x).born := by
        simp only [view]
        rcases move_nextX hm with h | h
        · rw [h]
        · exact absurd h hd
      have hx' : (c'.view x).info = some m' := hx
      have e : (c.view x).info = c.metas.get? x := rfl
      generalize c'.view x = v' at hv hx' hb
      rw [← e]
      generalize c.view x = v at hv hb
      cases hv with
      | dial _ _ _ _ _ h => rw [h] at hb; cases hb
      | shutdown h1 h2 h3 h4 h5 => cases hx'; exact .inl ⟨_, h4, rfl, .inl rfl⟩
      | mintOk e now h1 h2 h3 h4 h5 h6 h7 => cases hx'; exact .inl ⟨_, h2, rfl, .inr rfl⟩
      | refl => exact .inl ⟨m', hx', rfl, .inl rfl⟩
      | call => exact .inl ⟨m', hx', rfl, .inl rfl⟩
      | bridge => exact .inl ⟨m', hx', rfl, .inl rfl⟩
      | commit => exact .inl ⟨m', hx', rfl, .inl rfl⟩
      | collect => exact .inl ⟨m', hx', rfl, .inl rfl⟩
      | _ => cases hx'
  refine ⟨fun sid kind hk => ?_, fun x m' sid kind hx hmi hk => ?_, fun x m' peer hx hmi => ?_⟩
  · rcases (move_ext hm).2 sid kind hk with h1 | ⟨op, h1, h2⟩
    · exact hw (h.stash _ _ h1)
    · rw [h2]; exact starts_wants hr h1
  · rcases hm' x m' hx with ⟨m, h1, h2, h3⟩ | ⟨sid', h1, h2⟩
    · rcases h3 with h3 | h3
      · exact hw (h.metas x m sid kind h1 (by rw [← h3]; exact hmi) (by rw [← h2]; exact hk))
      · rw [h3] at hmi; cases hmi
    · rw [h1] at hmi; cases hmi; exact h2 kind hk
  · rcases hm' x m' hx with ⟨m, h1, h2, h3⟩ | ⟨sid', h1, h2⟩
    · rcases h3 with h3 | h3
      · rw [h2]; exact h.inb x m peer h1 (by rw [← h3]; exact hmi)
      · rw [h3] at hmi; cases hmi
    · rw [h1] at hmi; cases hmi

theorem first_ext {c c1 : Coord I A} {op : XOp I A} (hf : First cfg env X T c op c1) :
    c1.ep = c.ep ∧ ∀ sid kind, c1.kinds.get? sid = some kind → c.kinds.get? sid = some kind := by
  cases hf with
  | plain s => exact ⟨s.ep, s.kinds⟩
  | encrypt ring =>
    unfold Coord.setEncryption
    split
    · exact ⟨rfl, fun _ _ h => h⟩
    · simp only []
      refine ⟨(abortFailed_fold _ _).1, fun sid kind h => ?_⟩
      have : ∀ (l : List Nat) (c : Coord I A), (l.foldl abortFailed c).kinds = c.kinds := by
        intro l
        induction l with
        | nil => intro c; rfl
        | cons a l ih => intro c; exact ih _
      rw [this] at h
      exact h
  | popAction =>
    unfold pollAction
    split
    · exact ⟨rfl, fun _ _ h => h⟩
    · split <;> exact ⟨rfl, fun _ _ h => h⟩
  | accept src now x =>
    unfold Coord.accept
    simp only []
    split
    · exact ⟨rfl, fun _ _ h => h⟩
    · split <;> exact ⟨rfl, fun _ _ h => h⟩
  | _ => exact ⟨rfl, fun _ _ h => h⟩

theorem Kinded.first {e0 : Ep I A} {c c1 : Coord I A} {op : XOp I A} (hs : Shape cfg env e0 c)
    (hf : First cfg env X T c op c1) (h : Kinded c) : Kinded c1 := by
  obtain ⟨he, hk⟩ := first_ext hf
  have hm : ∀ x m', c1.metas.get? x = some m' → c.metas.get? x = some m' ∨
      ∃ peer, m'.mint = some (.inbound peer) ∧ m'.kind = none := by
    intro x m' hx
    have hv := view_first hs hf x
    have e : (c.view x).info = c.metas.get? x := rfl
    have hx' : (c1.view x).info = some m' := hx
    rw [← e]
    generalize c1.view x = v' at hv hx'
    generalize c.view x = v at hv
    generalize c1.ring = r' at hv
    generalize c.ring = r at hv
    generalize emitOf x (c.step cfg env X T op).2 = em at hv
    clear hf
    cases hv with
    | accept => cases hx'; exact .inr ⟨_, rfl, rfl⟩
    | _ => exact .inl hx'
  refine ⟨fun sid kind h1 => by rw [he]; exact h.stash _ _ (hk _ _ h1), fun x m' sid kind hx hmi hkk => ?_, fun x m' peer hx hmi => ?_⟩
  · rw [he]
    rcases hm x m' hx with h1 | ⟨peer, h1, _⟩
    · exact h.metas x m' sid kind h1 hmi hkk
    · rw [h1] at hmi; cases hmi
  · rcases hm x m' hx with h1 | ⟨_, _, h1⟩
    · exact h.inb x m' peer h1 hmi
    · exact h1

theorem Kinded.new (e0 : Ep I A) (cmp : CmpOptions) : Kinded (Coord.new e0 cmp) :=
  ⟨fun _ _ h => (by cases h), fun _ _ _ _ h => (by cases h), fun _ _ _ h => (by cases h)⟩

/-- What the endpoint answers to a mint. -/
theorem Kinded.meant {c : Coord I A} (h : Kinded c) {x : Nat} {m : XMeta A} {mint : Mint A} {s : Stream I A} {now : Nat}
    (hx : c.metas.get? x = some m) (hmi : m.mint = some mint)
    (hs : (c.ep.step cfg env (mintOp mint now)).2 = .stream (some s)) : Meant m s := by
  intro kind hk
  cases mint with
  | inbound peer => rw [h.inb x m peer hx hmi] at hk; cases hk
  | outbound sid =>
    have hw := h.metas x m sid kind hx hmi hk
    simp only [mintOp, Ep.step, Ep.Out.stream.injEq] at hs
    unfold Ep.dialSucceeded at hs
    split at hs
    · cases hs
    · next i hi =>
      simp only [] at hs
      split at hs
      · cases hs
      · split at hs
        · cases hs
        · simp only [Option.some.injEq] at hs
          subst hs
          exact ⟨i.kind, rfl, hw.2 i hi⟩

/-- What holds at the start and is kept by every first effect and every move holds after every history. -/
theorem view_run {P : List (XOp I A × List (XEmit A)) → Option Keyring → XV I A → Prop} {t0 : Nat} {e0 : Ep I A}
    (hnew : Ep.tryNew cfg env t0 = .ok e0) (cmp : CmpOptions) (x : Nat) (h0 : P [] none blank)
    (hf : ∀ h ring v op em ring' v', VOk cfg x ring v → (∀ b, v.br = some b → b.Calm) → P h ring v →
      VFirst cfg env X T x ring v op em ring' v' → P (h ++ [(op, em)]) ring' v')
    (hm : ∀ N L h ring v v', (∀ t b, N t b → ∃ e ∈ h, Spec.instant e.1 = some t) → VOk cfg x ring v → P h ring v →
      VStep cfg env X T N L Meant x ring v v' → P h ring v')
    (ops : List (XOp I A)) :
    P (hist cfg env X T (Coord.new e0 cmp) x ops) ((Coord.new e0 cmp).run cfg env X T ops).ring
      (((Coord.new e0 cmp).run cfg env X T ops).view x) := by
  have key : Kinded ((Coord.new e0 cmp).run cfg env X T ops) ∧
      P (hist cfg env X T (Coord.new e0 cmp) x ops) ((Coord.new e0 cmp).run cfg env X T ops).ring
        (((Coord.new e0 cmp).run cfg env X T ops).view x) := by
    have hr0 := Ep.reachable_new hnew
    induction ops using snoc_induction with
    | h0 => exact ⟨.new e0 cmp, h0⟩
    | h1 ops op ih =>
      rw [hist_snoc, xrun_snoc]
      have hs := shape_run (cfg := cfg) (env := env) (X := X) (T := T) e0 cmp ops
      have hc := run_calm (cfg := cfg) (env := env) (X := X) (T := T) e0 cmp ops
      revert ih hs hc
      generalize (Coord.new e0 cmp).run cfg env X T ops = c
      rintro ⟨hk, ih⟩ hs hc
      obtain ⟨c1, h1, h2⟩ := step_moves (cfg := cfg) (env := env) (X := X) (T := T) c op
      have h3 := hf _ _ _ _ _ _ _ (vok hs x) (fun b hb => hc x b hb (by simp)) ih (view_first hs h1 x)
      have h4 : Shape cfg env e0 c1 := hs.first h1 (order_mem T)
      have h5 : Shape cfg env e0 (c.step cfg env X T op).1 ∧ Kinded (c.step cfg env X T op).1 ∧
          P (hist cfg env X T (Coord.new e0 cmp) x ops ++ [(op, emitOf x (c.step cfg env X T op).2)])
            (c.step cfg env X T op).1.ring ((c.step cfg env X T op).1.view x) := by
        refine h2.inv (P := fun c' => Shape cfg env e0 c' ∧ Kinded c' ∧
          P (hist cfg env X T (Coord.new e0 cmp) x ops ++ [(op, emitOf x (c.step cfg env X T op).2)]) c'.ring (c'.view x))
          ?_ ⟨h4, hk.first hs h1, h3⟩
        rintro c' c'' hmv ⟨g1, g2, g3⟩
        refine ⟨g1.move hmv, g2.move hr0 g1 hmv, ?_⟩
        rw [move_ring hmv]
        exact hm _ _ _ _ _ _ (fun t _ ht => ⟨_, List.mem_append_right _ (List.mem_singleton.2 rfl), ht⟩) (vok g1 x) g3 (view_move g1 hmv (fun y m mint s now h1 h2 h3 => g2.meant h1 h2 h3) x)
      exact h5.2
  exact key.2

theorem kinded_run {t0 : Nat} {e0 : Ep I A} (hnew : Ep.tryNew cfg env t0 = .ok e0) (cmp : CmpOptions)
    (ops : List (XOp I A)) : Kinded ((Coord.new e0 cmp).run cfg env X T ops) := by
  have hr0 := Ep.reachable_new hnew
  induction ops using snoc_induction with
  | h0 => exact .new e0 cmp
  | h1 ops op ih =>
    rw [xrun_snoc]
    have hs := shape_run (cfg := cfg) (env := env) (X := X) (T := T) e0 cmp ops
    revert ih hs
    generalize (Coord.new e0 cmp).run cfg env X T ops = c
    intro hk hs
    obtain ⟨c1, h1, h2⟩ := step_moves (cfg := cfg) (env := env) (X := X) (T := T) c op
    have h5 : Shape cfg env e0 (c.step cfg env X T op).1 ∧ Kinded (c.step cfg env X T op).1 := by
      refine h2.inv (P := fun c' => Shape cfg env e0 c' ∧ Kinded c') ?_ ⟨hs.first h1 (order_mem T), hk.first hs h1⟩
      rintro c' c'' hmv ⟨g1, g2⟩
      exact ⟨g1.move hmv, g2.move hr0 g1 hmv⟩
    exact h5.2

end Coord
end Verif
