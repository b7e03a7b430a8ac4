import Verif.Proof.QuicLift
/-
The dials, the connections and the calls of the QUIC node as sequences of moves.
-/
namespace Verif.Quic
open Verif Map QBridge
variable {I A : Type} [DecidableEq I] [DecidableEq A] {Q : Quinn A}
variable {cfg : Cfg I A} {env : Env I A} {X : QCfg} {T : TEnv}

/-- One entry was taken and done with. -/
structure Took (cfg : Cfg I A) (env : Env I A) (X : QCfg) (T : TEnv) (s s' : Quic I Q) (hand : List (QDial A)) : Prop where
  moves : Moves cfg env X T s s'
  hot : s'.hot = s.hot
  doom : s'.doom = s.doom
  hand : s'.hand = hand
  limbo : s'.limbo = none

theorem Took.after {a b c : Quic I Q} {hand : List (QDial A)} (h : Went cfg env X T a b) (h2 : Took cfg env X T b c hand) :
    Took cfg env X T a c hand :=
  ⟨h.moves.trans h2.moves, h2.hot.trans h.hot, h2.doom.trans h.doom, h2.hand, h2.limbo⟩

theorem Took.then {a b c : Quic I Q} {hand : List (QDial A)} (h : Took cfg env X T a b hand) (h2 : Went cfg env X T b c) :
    Took cfg env X T a c hand :=
  ⟨h.moves.trans h2.moves, h2.hot.trans h.hot, h2.doom.trans h.doom, h2.hand.trans h.hand, h2.limbo.trans h.limbo⟩

theorem report_fields (s : Quic I Q) (id : Nat) (peer : A) (ok : Bool) (kind : ExKind) :
    (s.report cfg env id peer ok kind).hot = s.hot ∧ (s.report cfg env id peer ok kind).doom = s.doom ∧
    (s.report cfg env id peer ok kind).hand = s.hand ∧ (s.report cfg env id peer ok kind).limbo = s.limbo :=
  ⟨rfl, rfl, rfl, rfl⟩

theorem retire_fields (s : Quic I Q) (id : Nat) :
    (s.retire cfg env id).hot = s.hot ∧ (s.retire cfg env id).doom = s.doom ∧
    (s.retire cfg env id).hand = s.hand ∧ (s.retire cfg env id).limbo = none := by
  unfold retire
  dsimp only [callEp]
  split <;> exact ⟨rfl, rfl, rfl, rfl⟩

theorem retire_took {s : Quic I Q} (d : QDial A) (hl : s.limbo = some d) :
    Took cfg env X T s (s.retire cfg env d.id) s.hand := by
  obtain ⟨r1, r2, r3, r4⟩ := retire_fields (cfg := cfg) (env := env) s d.id
  exact ⟨.one (.retire d hl), r1, r2, r3, r4⟩

theorem noteUp_fields (s : Quic I Q) (p : A) (k : ExKind) :
    (s.noteUp p k).hot = s.hot ∧ (s.noteUp p k).doom = s.doom ∧ (s.noteUp p k).hand = s.hand ∧
    (s.noteUp p k).limbo = s.limbo := by
  unfold noteUp; split <;> exact ⟨rfl, rfl, rfl, rfl⟩

theorem noteDown_fields (s : Quic I Q) (p : A) (k : ExKind) :
    (s.noteDown p k).hot = s.hot ∧ (s.noteDown p k).doom = s.doom ∧ (s.noteDown p k).hand = s.hand ∧
    (s.noteDown p k).limbo = s.limbo := by
  unfold noteDown; split <;> exact ⟨rfl, rfl, rfl, rfl⟩

theorem repark_took {s : Quic I Q} (d : QDial A) (now : Nat) (hl : s.limbo = some d) :
    Took cfg env X T s (s.repark X d now) s.hand := by
  have h : (s.repark X d now).hot = s.hot ∧ (s.repark X d now).doom = s.doom ∧ (s.repark X d now).hand = s.hand ∧
      (s.repark X d now).limbo = none := by
    unfold repark
    exact noteUp_fields _ _ _
  exact ⟨.one (.repark d now hl), h.1, h.2.1, h.2.2.1, h.2.2.2⟩

theorem takeEntry_fields (s : Quic I Q) (d : QDial A) :
    (s.takeEntry d).hot = s.hot ∧ (s.takeEntry d).doom = s.doom ∧ (s.takeEntry d).hand = s.hand.tail ∧
    (s.takeEntry d).limbo = some d ∧ (s.takeEntry d).pool = s.pool := by
  unfold takeEntry noteDown
  dsimp only
  split <;> split <;> exact ⟨rfl, rfl, rfl, rfl, rfl⟩

/-- The rest of the work on one entry. -/
theorem openDial_took (hS : Q.Sound) {s : Quic I Q} {d : QDial A} {ch now : Nat} (hl : s.limbo = some d)
    (hd : (s.pool.dial Q X.caps now d.peer).2 = .ok ch) :
    Took cfg env X T s
      (({ s with pool := (s.pool.dial Q X.caps now d.peer).1, stale := residue s.stale ch } : Quic I Q).openDial
        cfg env X d ch now).1 s.hand := by
  have h0 : Went cfg env X T s { s with pool := (s.pool.dial Q X.caps now d.peer).1, stale := residue s.stale ch } :=
    (Went.one (.dial now d.peer)).snoc (.book ..)
  unfold openDial
  dsimp only [table]
  cases he : (s.pool.dial Q X.caps now d.peer).1.table.conns.get? ch with
  | none =>
    exact ⟨(Moves.one (.dialLost now d.peer ch hd he)).snoc (.book ..), rfl, rfl, rfl, rfl⟩
  | some e =>
    dsimp only
    split
    · exact Took.after h0 (repark_took (s := { s with pool := (s.pool.dial Q X.caps now d.peer).1, stale := residue s.stale ch }) d now hl)
    · next hc =>
      have hv := via_step (D := s.hot = some ch) (s.pool.dial Q X.caps now d.peer).1.table ch Q.openBi (.inr hS.openBi)
      have hp : ∀ t, (s.pool.dial Q X.caps now d.peer).1.table.on Q ch (fun e => e.via Q Q.openBi) = t →
          Went cfg env X T s (({ s with pool := (s.pool.dial Q X.caps now d.peer).1, stale := residue s.stale ch } :
            Quic I Q).putTable ch t.1) := by
        intro t ht
        rw [ht] at hv
        exact h0.trans (put_went ch ch hv)
      split
      · next t sid ht =>
        have hp := hp _ ht
        dsimp only at hp
        unfold callEp
        dsimp only [putTable]
        split
        · next s1 st hx =>
          have hx1 := congrArg Prod.fst hx
          have hx2 := congrArg Prod.snd hx
          dsimp only at hx1 hx2
          subst hx1
          have hm := Move.mint (cfg := cfg) (env := env) (X := X) (T := T) (s := s) d now ch sid e t st hl hd he
            (by
              by_cases hk : d.kind = .reliablePing
              · exact .inl hk
              · right
                simp only [not_and, Nat.not_le] at hc
                exact hc hk) ht hx2
          refine ⟨(Moves.one hm).snoc (.book (stale := residue (residue s.stale ch) ch)
            (loose := residue s.loose st.id) ..), rfl, rfl, rfl, rfl⟩
        · next s1 o _ hx =>
          have hx1 := congrArg Prod.fst hx
          dsimp only at hx1
          subst hx1
          have h1 := hp.trans (Went.one (.call (some d.id) (.dialSucceeded d.id now) trivial))
          refine ((retire_took d (s := (callEp cfg env (({ s with pool := (s.pool.dial Q X.caps now d.peer).1, stale := residue s.stale ch } :
            Quic I Q).putTable ch t) (some d.id) (.dialSucceeded d.id now)).1) ?_).after h1).then (use_went _ ch _ (.inr fun c => hS.abandon c sid))
          exact hl
      · next t o _ ht =>
        have hp := hp _ ht
        dsimp only at hp
        repeat' split
        all_goals first
          | exact Took.after hp (retire_took d (by exact hl))
          | exact Took.after hp (repark_took d now (by exact hl))

theorem processDial_took (hS : Q.Sound) {s : Quic I Q} {d : QDial A} {rest : List (QDial A)} (now : Nat)
    (hh : s.hand = d :: rest) (hl : s.limbo = none) :
    Took cfg env X T s (s.processDial cfg env X d now).1 rest := by
  obtain ⟨e1, e2, e3, e4, e5⟩ := takeEntry_fields s d
  have hm : Moves cfg env X T s (s.takeEntry d) := .one (.takeEntry d rest hh hl)
  rw [hh, List.tail_cons] at e3
  have key : ∀ s' : Quic I Q, Took cfg env X T (s.takeEntry d) s' (s.takeEntry d).hand → Took cfg env X T s s' rest :=
    fun s' h => ⟨hm.trans h.moves, h.hot.trans e1, h.doom.trans e2, h.hand.trans e3, h.limbo⟩
  unfold processDial
  dsimp only
  split
  · exact key _ (retire_took d e4)
  · split
    · next p _ hp =>
      have hp1 := congrArg Prod.fst hp
      dsimp only at hp1
      refine key _ (Took.after ?_ (retire_took d (s := { s.takeEntry d with pool := p }) e4))
      rw [← hp1]
      exact .one (.dial now d.peer)
    · next p ch hp =>
      have hp1 := congrArg Prod.fst hp
      have hp2 := congrArg Prod.snd hp
      dsimp only at hp1 hp2
      have := openDial_took (cfg := cfg) (env := env) (X := X) (T := T) hS (s := s.takeEntry d) e4 hp2
      rw [hp1] at this
      exact key _ this

theorem processAll_took (hS : Q.Sound) (now : Nat) : ∀ (l : List (QDial A)) (s : Quic I Q), s.hand = l → s.limbo = none →
    Took cfg env X T s (s.processAll cfg env X now l).1 [] := by
  intro l
  induction l with
  | nil => intro s hh hl; exact ⟨.refl s, rfl, rfl, hh, hl⟩
  | cons d l ih =>
    intro s hh hl
    have h1 := processDial_took (cfg := cfg) (env := env) (X := X) (T := T) hS now hh hl
    have h2 := ih _ h1.hand h1.limbo
    simp only [processAll]
    exact ⟨h1.moves.trans h2.moves, h2.hot.trans h1.hot, h2.doom.trans h1.doom, h2.hand, h2.limbo⟩

/-- From calm to calm. -/
theorem Took.went {s s' : Quic I Q} (h : Took cfg env X T s s' []) (h2 : s.hand = []) (h3 : s.limbo = none) :
    Went cfg env X T s s' := ⟨h.moves, h.hot, h.doom, h.hand.trans h2.symm, h.limbo.trans h3.symm⟩

theorem queueDial_fields (s : Quic I Q) (d : QDial A) :
    (s.queueDial d).hot = s.hot ∧ (s.queueDial d).doom = s.doom ∧ (s.queueDial d).hand = s.hand ∧
    (s.queueDial d).limbo = s.limbo := noteUp_fields _ _ _

theorem sieve_fields (s : Quic I Q) : (s.sieve cfg env).hot = s.hot ∧ (s.sieve cfg env).doom = s.doom ∧
    (s.sieve cfg env).hand = s.hand ∧ (s.sieve cfg env).limbo = s.limbo := by
  have h : ∀ (l : List (QDial A)) (s : Quic I Q), (l.foldl queueDial s).hot = s.hot ∧ (l.foldl queueDial s).doom = s.doom ∧
      (l.foldl queueDial s).hand = s.hand ∧ (l.foldl queueDial s).limbo = s.limbo := by
    intro l
    induction l with
    | nil => intro s; exact ⟨rfl, rfl, rfl, rfl⟩
    | cons d l ih =>
      intro s
      obtain ⟨a1, a2, a3, a4⟩ := ih (s.queueDial d)
      obtain ⟨b1, b2, b3, b4⟩ := queueDial_fields s d
      exact ⟨a1.trans b1, a2.trans b2, a3.trans b3, a4.trans b4⟩
  exact h ((Coord.dialsOf s.ep.sieveDials.2).map (fromRequest s.ep)) (s.callEp cfg env none .sieveDials).1

theorem takeAll_took (hS : Q.Sound) (now : Nat) (s : Quic I Q) (hh : s.hand = []) (hl : s.limbo = none) :
    Went cfg env X T s (s.takeDials.processAll cfg env X now s.takeDials.hand).1 := by
  have h := processAll_took (cfg := cfg) (env := env) (X := X) (T := T) hS now s.takeDials.hand s.takeDials rfl hl
  exact ⟨(Moves.one (.takeDials hh)).trans h.moves, h.hot, h.doom, h.hand.trans hh.symm, h.limbo.trans hl.symm⟩

theorem takeParked_took (hS : Q.Sound) (now : Nat) (s : Quic I Q) (hh : s.hand = []) (hl : s.limbo = none) :
    Went cfg env X T s ((s.takeParked T).processAll cfg env X now (s.takeParked T).hand).1 := by
  have h := processAll_took (cfg := cfg) (env := env) (X := X) (T := T) hS now (s.takeParked T).hand (s.takeParked T) rfl hl
  exact ⟨(Moves.one (.takeParked hh)).trans h.moves, h.hot, h.doom, h.hand.trans hh.symm, h.limbo.trans hl.symm⟩

theorem serviceDials_went (hS : Q.Sound) (now : Nat) (s : Quic I Q) (hh : s.hand = []) (hl : s.limbo = none) :
    Went cfg env X T s (s.serviceDials cfg env X T now).1 := by
  obtain ⟨g1, g2, g3, g4⟩ := sieve_fields (cfg := cfg) (env := env) s
  have h := processAll_took (cfg := cfg) (env := env) (X := X) (T := T) hS now (s.sieve cfg env).takeDials.hand
    (s.sieve cfg env).takeDials rfl (g4.trans hl)
  have h3 : Went cfg env X T s ((s.sieve cfg env).takeDials.processAll cfg env X now (s.sieve cfg env).takeDials.hand).1 :=
    ⟨(Moves.one (.sieve hh)).trans h.moves, h.hot.trans g1, h.doom.trans g2, h.hand.trans hh.symm, h.limbo.trans hl.symm⟩
  exact h3.trans (takeParked_took hS now _ (h3.hand.trans hh) (h3.limbo.trans hl))

theorem pop_took (hS : Q.Sound) (now : Nat) {s : Quic I Q} {peer : A} {d : QDial A} {rest : List (QDial A)}
    (hp : s.parked.get? peer = some (d :: rest)) (hh : s.hand = []) (hl : s.limbo = none) :
    Went cfg env X T s ((s.popParked peer d rest).processDial cfg env X d now).1 := by
  have h := processDial_took (cfg := cfg) (env := env) (X := X) (T := T) hS (s := s.popParked peer d rest) now rfl hl
  exact ⟨(Moves.one (.popParked peer d rest hh hp)).trans h.moves, h.hot, h.doom, h.hand.trans hh.symm, h.limbo.trans hl.symm⟩

theorem bucketLoop_went (hS : Q.Sound) (peer : A) (now : Nat) : ∀ (n : Nat) (s : Quic I Q) (pops : Nat) (b : BucketEnd),
    s.hand = [] → s.limbo = none → Went cfg env X T s (s.bucketLoop cfg env X peer now n pops b).1 := by
  intro n
  induction n with
  | zero => intro s pops b _ _; exact .refl s
  | succ k ih =>
    intro s pops b hh hl
    simp only [bucketLoop]
    split
    · next d rest hp =>
      have h := pop_took (cfg := cfg) (env := env) (X := X) (T := T) hS now hp hh hl
      split
      · split
        · exact .refl s
        · split
          · exact h
          · exact h.trans (ih _ _ _ (h.hand.trans hh) (h.limbo.trans hl))
      · split
        · exact h
        · exact h.trans (ih _ _ _ (h.hand.trans hh) (h.limbo.trans hl))
    · exact .refl s

theorem bucketDone_went (peer : A) (now : Nat) (b : BucketEnd) (s : Quic I Q) :
    Went cfg env X T s (s.bucketDone X peer now b) := by
  unfold bucketDone
  split
  · exact .refl _
  · next hp => exact .one (.dropBucket peer hp)
  · split
    · exact .one (.book ..)
    · exact .refl _

theorem servicePeer_went (hS : Q.Sound) (peer : A) (now : Nat) (budget : Option Nat) (s : Quic I Q) (hc : Calm s) :
    Went cfg env X T s (s.servicePeer cfg env X peer now budget).1 := by
  exact (bucketLoop_went hS peer now _ s 0 _ hc.hand hc.limbo).trans (bucketDone_went peer now _ _)

theorem freedPeer_went (hS : Q.Sound) (now : Nat) (r : Quic I Q × Pass) (peer : A) (hc : Calm r.1) :
    Went cfg env X T r.1 (freedPeer cfg env X T now r peer).1 := by
  have h1 := servicePeer_went (cfg := cfg) (env := env) (X := X) (T := T) hS peer now r.2.dials r.1 hc
  have h2 := h1.trans (enqueueAll_went (r.1.servicePeer cfg env X peer now r.2.dials).2.out.minted _)
  exact h2.trans (drainReady_went hS now r.2.pumps _ (h2.doom.trans hc.doom))

theorem freedLoop_went (hS : Q.Sound) (now : Nat) : ∀ (n : Nat) (r : Quic I Q × Pass), Calm r.1 →
    Went cfg env X T r.1 (freedLoop cfg env X T now n r).1 := by
  intro n
  induction n with
  | zero =>
    intro r _
    simp only [freedLoop]
    split
    · exact .refl _
    · exact .one (.book ..)
  | succ k ih =>
    intro r hc
    simp only [freedLoop]
    split
    · exact .refl _
    · have hf : ∀ (l : List A) (r : Quic I Q × Pass), Calm r.1 →
          Went cfg env X T r.1 (l.foldl (freedPeer cfg env X T now) r).1 := by
        intro l
        induction l with
        | nil => intro r _; exact .refl _
        | cons p l ih =>
          intro r hc
          have h := freedPeer_went (cfg := cfg) (env := env) (X := X) (T := T) hS now r p hc
          exact h.trans (ih _ (h.calm hc))
      have h0 : Went cfg env X T r.1 { r.1 with freed := [] } := .one (.book ..)
      have h1 := h0.trans (hf r.1.freed ({ r.1 with freed := [] }, r.2) (h0.calm hc))
      exact h1.trans (ih _ (h1.calm hc))

theorem serviceFreed_went (hS : Q.Sound) (now : Nat) (pumps dials : Option Nat) (s : Quic I Q) (hc : Calm s) :
    Went cfg env X T s (s.serviceFreed cfg env X T now pumps dials).1 := freedLoop_went hS now _ (s, _) hc

end Verif.Quic
