import Verif.Proof.EngineSeeds
import Verif.Proof.EngineSeal
/-
The packets of the endpoint: a pump takes them all, and sends each, sealed with the settings in force.
-/
namespace Verif.Coord
open Verif
variable {I A : Type} [DecidableEq I] [DecidableEq A]
variable {cfg : Cfg I A} {env : Env I A} {X : XCfg} {T : TEnv} {N : Nat → Bridge I A → Prop} {L : Prop}

theorem complete_cmp (c : Coord I A) (x : Nat) (m : Option (XMeta A)) (ok : Bool) :
    (c.complete cfg env x m ok).cmp = c.cmp := by
  unfold complete
  split
  · rfl
  · split <;> rfl

omit [DecidableEq I] [DecidableEq A] in
theorem collect_cmp (c : Coord I A) (x : Nat) (b : Bridge I A) : (c.collect x b).1.cmp = c.cmp := by
  unfold collect
  split
  · rfl
  · split <;> rfl

theorem reap_cmp (c : Coord I A) (x : Nat) (b : Bridge I A) : (c.reap cfg env x b).cmp = c.cmp := by
  unfold reap
  simp only []
  have h1 : (if b.isFailed = true then c.purge x else (c.collect x b).1).cmp = c.cmp := by
    split
    · rfl
    · exact collect_cmp c x b
  rw [← h1]
  generalize (if b.isFailed = true then c.purge x else (c.collect x b).1) = c1
  split
  · show (complete cfg env _ x _ _).cmp = _
    rw [complete_cmp]
  · show (complete cfg env _ x _ _).cmp = _
    rw [complete_cmp]

theorem move_cmp {c c' : Coord I A} (hm : Move cfg env X T N L c c') : c'.cmp = c.cmp := by
  cases hm with
  | book s => exact s.cmp
  | @shutdown x b =>
    unfold maybeShutdown
    split
    · rfl
    · split
      · rfl
      · split <;> rfl
  | @collect x b => exact collect_cmp c x b
  | @reap x b => exact reap_cmp c x b
  | dial now d hr =>
    rcases dialOne_cases (cfg := cfg) (env := env) (X := X) now c d with ⟨e, _⟩ | ⟨e, _⟩ <;> rw [e] <;> rfl
  | mintOut now => unfold retireDial; exact complete_cmp _ _ _ _
  | _ => rfl

/-- Only the call that sets the compression changes it. -/
theorem step_cmp (c : Coord I A) (op : XOp I A) (h : ∀ r, op ≠ .setCompression r) :
    (c.step cfg env X T op).1.cmp = c.cmp := by
  obtain ⟨c1, h1, h2⟩ := step_moves (cfg := cfg) (env := env) (X := X) (T := T) c op
  have hm : (c.step cfg env X T op).1.cmp = c1.cmp := by
    generalize (c.step cfg env X T op).1 = c2 at h2
    induction h2 with
    | refl => rfl
    | snoc _ hm ih => rw [move_cmp hm]; exact ih
  rw [hm]
  cases h1 with
  | plain s => exact s.cmp
  | compress r => exact absurd rfl (h r)
  | encrypt ring =>
    unfold Coord.setEncryption
    split
    · rfl
    · have : ∀ (l : List Nat) (c : Coord I A), (l.foldl abortFailed c).cmp = c.cmp := by
        intro l
        induction l with
        | nil => intro c; rfl
        | cons a l ih => intro c; rw [List.foldl_cons, ih]; rfl
      exact this _ _
  | popAction =>
    unfold pollAction
    split
    · rfl
    · split <;> rfl
  | accept src now x =>
    unfold Coord.accept
    simp only []
    split
    · rfl
    · split <;> rfl
  | _ => rfl

end Verif.Coord

namespace Verif.Engine
open Verif Coord Spec
variable {I A C S : Type} [DecidableEq I] [DecidableEq A] [DecidableEq C]
variable {cfg : Cfg I A} {env : Env I A} {X : XCfg} {T : TEnv} {E : EEnv S C A}

theorem algorithm_fits (k : SecretKey) : keyMatchesAlgorithm k.algorithm k = true ∧ ∀ t, k.algorithm ≠ .unknown t := by
  cases hk : k.kind <;> simp [keyMatchesAlgorithm, SecretKey.algorithm, hk]

/-- Sealing does not fail. -/
theorem sendGossip_ok {chk : Option ChkAlgo} (hk : ∀ b, chk ≠ some (.unknown b)) (B : Backends) (cmp : CmpOptions)
    (ring : Option Keyring) (nonce b : Bytes) : ∃ w, sendGossip B ⟨cmp, chk, ring⟩ nonce b = .ok w := by
  have h1 : ∃ d, checksumGossip B chk (compressPayload B cmp b) = .ok d := by
    unfold checksumGossip
    split
    · next a => cases a <;> first | exact ⟨_, rfl⟩ | exact absurd rfl (hk _)
    · exact ⟨_, rfl⟩
  obtain ⟨d, hd⟩ := h1
  have h2 : ∃ w, encryptPayload B ring nonce d = .ok w := by
    unfold encryptPayload
    split
    · exact ⟨_, rfl⟩
    · next r =>
      obtain ⟨f1, f2⟩ := algorithm_fits r.primary
      unfold encodeEncryptedFrame encEncrypt
      simp only [f1]
      revert f1 f2
      generalize r.primary.algorithm = a
      intro f1 f2
      cases a with
      | unknown t => exact absurd rfl (f2 t)
      | _ => exact ⟨_, rfl⟩
  obtain ⟨w, hw⟩ := h2
  exact ⟨w, by simp only [sendGossip, hd, hw]⟩

omit [DecidableEq I] [DecidableEq A] in
theorem packets_append (a b : List (XOp I A × XOut I A)) : packetsTaken (a ++ b) = packetsTaken a ++ packetsTaken b :=
  List.filterMap_append ..

omit [DecidableEq A] [DecidableEq C] in
theorem datagrams_append (a b : List (S × Act A C)) : datagramsSent (a ++ b) = datagramsSent a ++ datagramsSent b :=
  List.filterMap_append ..

omit [DecidableEq I] [DecidableEq A] in
theorem packets_none {op : XOp I A} (h : op ≠ .direct .pollTransmit) (o : XOut I A) : packetsTaken [(op, o)] = [] := by
  unfold packetsTaken
  rw [List.filterMap_eq_nil_iff]
  intro e he
  rw [List.mem_singleton] at he
  subst he
  split
  · next t he => cases he; exact absurd rfl h
  · rfl

omit [DecidableEq A] [DecidableEq C] in
theorem datagrams_none {l : List (S × Act A C)} (h : NoD l) : datagramsSent l = [] := by
  unfold datagramsSent
  rw [List.filterMap_eq_nil_iff]
  intro e he
  split
  · next dst b hb => exact absurd (by rw [← hb]; exact he) (h e.1 dst b)
  · rfl

/-- Nonces are drawn one after the other. -/
theorem move_sealed {P : XOp I A → Prop} {g g' : Engine I A C S} (hm : EMoveP cfg env X T E P g g') : g.sealed ≤ g'.sealed := by
  cases hm with
  | aside s => exact s.sealed
  | event =>
    simp only [act]
    split <;> (rename_i h; have h1 := congrArg Prod.fst h; simp only at h1; subst h1; exact Nat.le_refl _)
  | close x now =>
    unfold teardown
    repeat' split
    all_goals exact Nat.le_refl _
  | abort x =>
    unfold abortExchange
    repeat' split
    all_goals exact Nat.le_refl _
  | settle io now x k o =>
    unfold settle
    repeat' split
    all_goals exact Nat.le_refl _
  | reap c now =>
    unfold reapOne
    repeat' split
    all_goals exact Nat.le_refl _
  | _ => exact Nat.le_refl _

theorem moves_sealed {P : XOp I A → Prop} {g g' : Engine I A C S} (hm : EMovesP cfg env X T E P g g') : g.sealed ≤ g'.sealed := by
  induction hm with
  | refl => exact Nat.le_refl _
  | snoc _ hm ih => exact Nat.le_trans ih (move_sealed hm)

/-- A move of the engine, seen from the datagram plane. -/
structure Mute (g g' : Engine I A C S) : Prop where
  taken : packetsTaken g'.hist = packetsTaken g.hist
  sent : datagramsSent g'.log = datagramsSent g.log

/-- The settings are as they were. -/
structure Steady (g g' : Engine I A C S) : Prop where
  cmp : g'.coord.cmp = g.coord.cmp
  ring : g'.coord.ring = g.coord.ring

omit [DecidableEq I] [DecidableEq A] [DecidableEq C] in
theorem Mute.trans {a b c : Engine I A C S} (h : Mute a b) (k : Mute b c) : Mute a c :=
  ⟨k.taken.trans h.taken, k.sent.trans h.sent⟩

omit [DecidableEq I] [DecidableEq A] [DecidableEq C] in
theorem Steady.trans {a b c : Engine I A C S} (h : Steady a b) (k : Steady b c) : Steady a c :=
  ⟨k.cmp.trans h.cmp, k.ring.trans h.ring⟩

/-- No settings are changed, and no packet is taken. -/
def Still (op : XOp I A) : Prop :=
  op ≠ .direct .pollTransmit ∧ (∀ r, op ≠ .setEncryption r) ∧ ∀ c, op ≠ .setCompression c

omit [DecidableEq I] [DecidableEq A] [DecidableEq C] in
theorem tame_still {op : XOp I A} (h : Tame E op) : Still op :=
  ⟨fun e => (by subst e; cases h), fun _ e => (by subst e; cases h), fun _ e => (by subst e; cases h)⟩

omit [DecidableEq I] [DecidableEq A] in
theorem inner_still {op : XOp I A} (h : Inner op) : Still op :=
  ⟨fun e => (by subst e; cases h), fun _ e => (by subst e; cases h), fun _ e => (by subst e; cases h)⟩

theorem hstep_still {g g' : Engine I A C S} {o : Option (XOp I A)} (ho : HStep cfg env X T g g' o)
    (hi : ∀ op, o = some op → Still op) : packetsTaken g'.hist = packetsTaken g.hist ∧ Steady g g' := by
  cases ho with
  | none h1 h2 => exact ⟨by rw [h2], by rw [h1], by rw [h1]⟩
  | one op h1 h2 =>
    have hs := hi op rfl
    refine ⟨by rw [h2, packets_append, packets_none hs.1, List.append_nil], ?_, ?_⟩
    · rw [h1]; exact step_cmp g.coord op hs.2.2
    · rw [h1]; exact step_ring g.coord op hs.2.1

theorem still_moves {P : XOp I A → Prop} (hP : ∀ op, P op → Still op) (hj : ∀ a now, ¬ P (.startPushPull a .join now))
    {g g' : Engine I A C S} (hm : EMovesP cfg env X T E P g g') : Mute g g' ∧ Steady g g' := by
  induction hm with
  | refl => exact ⟨⟨rfl, rfl⟩, ⟨rfl, rfl⟩⟩
  | @snoc b c _ hm ih =>
    obtain ⟨_, o, ho, hi⟩ := move_call hj hm
    obtain ⟨k1, k2⟩ := hstep_still ho (fun op e => (hi op e).elim (hP op) inner_still)
    obtain ⟨l, hl, hd⟩ := move_log hm
    refine ⟨ih.1.trans ⟨k1, ?_⟩, ih.2.trans k2⟩
    rw [hl, datagrams_append, datagrams_none (fun s dst w h => (hP _ (hd s dst w h).1).1 rfl), List.append_nil]

theorem tame_moves_still {g g' : Engine I A C S} (hm : EMovesP cfg env X T E (Tame E) g g') : Mute g g' ∧ Steady g g' :=
  still_moves (fun _ => tame_still) (fun _ _ h => by cases h) hm

theorem call_still (g : Engine I A C S) {op : XOp I A} (h : Still op) :
    Mute g (g.call cfg env X T op).1 ∧ Steady g (g.call cfg env X T op).1 := by
  obtain ⟨k1, k2⟩ := hstep_still (cfg := cfg) (env := env) (X := X) (T := T) (g := g) (g' := (g.call cfg env X T op).1)
    (.one op rfl rfl) (fun _ e => by cases e; exact h)
  exact ⟨⟨k1, rfl⟩, k2⟩

theorem dialSeeds_still (g : Engine I A C S) (now : Nat) :
    Mute g (g.dialSeeds cfg env X T now) ∧ Steady g (g.dialSeeds cfg env X T now) := by
  unfold dialSeeds
  split
  · exact ⟨⟨rfl, rfl⟩, ⟨rfl, rfl⟩⟩
  · have : ∀ (l : List A) (h : Engine I A C S), Mute g h ∧ Steady g h →
        Mute g (l.foldl (fun g seed => (g.call cfg env X T (.startPushPull seed .join now)).1) h) ∧
        Steady g (l.foldl (fun g seed => (g.call cfg env X T (.startPushPull seed .join now)).1) h) := by
      intro l
      induction l with
      | nil => exact fun h hh => hh
      | cons a l ih =>
        intro h hh
        rw [List.foldl_cons]
        have := call_still (cfg := cfg) (env := env) (X := X) (T := T) h (op := .startPushPull a .join now) ⟨by simp, by simp, by simp⟩
        exact ih _ ⟨hh.1.trans this.1, hh.2.trans this.2⟩
    exact this g.seeds _ ⟨⟨rfl, rfl⟩, ⟨rfl, rfl⟩⟩

/-- What a sequence of packets becomes. -/
structure Mailed (env : Env I A) (X : XCfg) (T : TEnv) (E : EEnv S C A) (cmp : CmpOptions) (ring : Option Keyring)
    (g g' : Engine I A C S) (fates : List (Transmit I A × Option (Nat × A × Bytes))) : Prop where
  taken : packetsTaken g'.hist = packetsTaken g.hist ++ fates.map Prod.fst
  sent : datagramsSent g'.log = datagramsSent g.log ++ fates.filterMap (fun f => f.2.map Prod.snd)
  fate : ∀ f ∈ fates, Fate env X T E cmp ring f.1 f.2
  sealed : g.sealed ≤ g'.sealed
  draws : ∀ k ∈ fates.filterMap (fun f => f.2.map Prod.fst), g.sealed ≤ k ∧ k < g'.sealed
  fresh : (fates.filterMap (fun f => f.2.map Prod.fst)).Pairwise (· < ·)

omit [DecidableEq I] [DecidableEq C] in
theorem sendDatagram_fate (hE : ChecksumKnown E) (g : Engine I A C S) (t : Transmit I A) :
    ∃ o, Fate env X T E g.coord.cmp g.coord.ring t o ∧ (g.sendDatagram env X T E t).coord = g.coord ∧
      (g.sendDatagram env X T E t).hist = g.hist ∧ g.sealed ≤ (g.sendDatagram env X T E t).sealed ∧
      datagramsSent (g.sendDatagram env X T E t).log = datagramsSent g.log ++ (o.map Prod.snd).toList ∧
      ∀ k dst w, o = some (k, dst, w) → k = g.sealed ∧ g.sealed < (g.sendDatagram env X T E t).sealed := by
  unfold sendDatagram Fate
  cases encodeTransmit env X t with
  | none => exact ⟨none, rfl, rfl, rfl, Nat.le_refl _, by simp, fun _ _ _ h => (by cases h)⟩
  | some p =>
    obtain ⟨dst, b⟩ := p
    simp only
    obtain ⟨w, hw⟩ := sendGossip_ok hE T.B g.coord.cmp g.coord.ring (E.nonce g.sealed) b
    rw [hw]
    simp only
    cases hr : E.routable dst with
    | false => exact ⟨none, by simp, rfl, rfl, Nat.le_succ _, by simp, fun _ _ _ h => (by cases h)⟩
    | true =>
      cases hb : E.blocked dst with
      | true => exact ⟨none, by simp, rfl, rfl, Nat.le_succ _, by simp, fun _ _ _ h => (by cases h)⟩
      | false =>
        refine ⟨some (g.sealed, dst, w), by simpa using hw, rfl, rfl, Nat.le_succ _, ?_, ?_⟩
        · simp [note, datagramsSent]
        · intro k dst' w' h
          cases h
          exact ⟨rfl, Nat.lt_succ_self _⟩

theorem drainTransmits_mailed (hE : ChecksumKnown E) (fuel : Nat) : ∀ (g : Engine I A C S),
    g.coord.ep.net.transmits.length < fuel →
    (drainTransmits cfg env X T E fuel g).coord.ep.net.transmits = [] ∧ Steady g (drainTransmits cfg env X T E fuel g) ∧
    ∃ fates, Mailed env X T E g.coord.cmp g.coord.ring g (drainTransmits cfg env X T E fuel g) fates := by
  induction fuel with
  | zero => intro g h; cases h
  | succ fuel ih =>
    intro g hf
    unfold drainTransmits
    have hcall : g.call cfg env X T (.direct .pollTransmit) =
        ((g.call cfg env X T (.direct .pollTransmit)).1, .endpoint (.transmit g.coord.ep.pollTransmit.2)) := rfl
    have hep : (g.call cfg env X T (.direct .pollTransmit)).1.coord.ep = g.coord.ep.pollTransmit.1 := rfl
    have hset : Steady g (g.call cfg env X T (.direct .pollTransmit)).1 := ⟨rfl, rfl⟩
    have hhist : (g.call cfg env X T (.direct .pollTransmit)).1.hist =
        g.hist ++ [(.direct .pollTransmit, .endpoint (.transmit g.coord.ep.pollTransmit.2))] := rfl
    have hlog : (g.call cfg env X T (.direct .pollTransmit)).1.log = g.log := rfl
    have hsl : (g.call cfg env X T (.direct .pollTransmit)).1.sealed = g.sealed := rfl
    rw [hcall]
    generalize (g.call cfg env X T (.direct .pollTransmit)).1 = g1 at *
    clear hcall
    cases ht : g.coord.ep.net.transmits with
    | nil =>
      have h2 : g.coord.ep.pollTransmit = (g.coord.ep, none) := by simp only [Ep.pollTransmit, ht]
      rw [h2] at hep hhist ⊢
      simp only at hep hhist ⊢
      refine ⟨by rw [hep, ht], hset, [], ?_⟩
      refine ⟨by rw [hhist, packets_append]; simp [packetsTaken], by rw [hlog]; simp, by simp, Nat.le_of_eq hsl.symm, by simp, by simp⟩
    | cons t rest =>
      have h2 : g.coord.ep.pollTransmit.2 = some t := by simp only [Ep.pollTransmit, ht]
      have h3 : g.coord.ep.pollTransmit.1.net.transmits = rest := by
        simp only [Ep.pollTransmit, ht]
        split
        · rfl
        · split <;> rfl
      rw [h2] at hhist ⊢
      simp only
      obtain ⟨o, f1, f2, f3, f4, f5, f6⟩ := sendDatagram_fate (env := env) (X := X) (T := T) hE g1 t
      have hlen : (g1.sendDatagram env X T E t).coord.ep.net.transmits.length < fuel := by
        rw [f2, hep, h3]
        rw [ht] at hf
        simp only [List.length_cons] at hf
        omega
      obtain ⟨i1, i2, fates, i3⟩ := ih (g1.sendDatagram env X T E t) hlen
      refine ⟨i1, (hset.trans ⟨by rw [f2], by rw [f2]⟩).trans i2, (t, o) :: fates, ?_⟩
      rw [f2, hset.cmp, hset.ring] at i3
      rw [hset.cmp, hset.ring] at f1
      refine ⟨?_, ?_, ?_, ?_, ?_, ?_⟩
      · rw [i3.taken, f3, hhist, packets_append]
        simp [packetsTaken]
      · rw [i3.sent, f5, hlog]
        cases o <;> simp
      · intro f hf
        rcases List.mem_cons.1 hf with rfl | hf
        · exact f1
        · exact i3.fate f hf
      · exact Nat.le_trans (hsl ▸ f4) i3.sealed
      · intro k hk
        cases o with
        | none => exact ⟨Nat.le_trans (hsl ▸ f4) (i3.draws k (by simpa using hk)).1, (i3.draws k (by simpa using hk)).2⟩
        | some v =>
          obtain ⟨k', dst, w⟩ := v
          obtain ⟨e1, e2⟩ := f6 k' dst w rfl
          simp only [List.filterMap_cons, Option.map_some, List.mem_cons] at hk
          rcases hk with rfl | hk
          · exact ⟨Nat.le_of_eq (by rw [e1, hsl]), Nat.lt_of_lt_of_le (by rw [e1]; exact e2) i3.sealed⟩
          · exact ⟨Nat.le_trans (hsl ▸ f4) (i3.draws k hk).1, (i3.draws k hk).2⟩
      · cases o with
        | none => exact i3.fresh
        | some v =>
          obtain ⟨k', dst, w⟩ := v
          obtain ⟨e1, e2⟩ := f6 k' dst w rfl
          simp only [List.filterMap_cons, Option.map_some, List.pairwise_cons]
          exact ⟨fun k hk => Nat.lt_of_lt_of_le (by rw [e1]; exact e2) (i3.draws k hk).1, i3.fresh⟩

/-- What a pump does with the packets of the endpoint. -/
theorem pump_mailed (hE : ChecksumKnown E) {g : Engine I A C S} (hn : g.conns.NodupKeys) (now : Nat)
    (datagrams : List (A × Bytes)) :
    let g' := g.pump cfg env X T E now datagrams
    Steady g g' ∧ (∃ fates, Mailed env X T E g.coord.cmp g.coord.ring g g' fates) ∧
    (g'.cut = false → g'.coord.ep.net.transmits = []) := by
  intro g'
  obtain ⟨g5, h5, h⟩ := pump_split (cfg := cfg) (env := env) (X := X) (T := T) (E := E) hn now datagrams
  obtain ⟨a1, a2⟩ := tame_moves_still h5
  have a3 := moves_sealed h5
  have mute : ∀ {g6 : Engine I A C S}, Mute g g6 → g.sealed ≤ g6.sealed → Mailed env X T E g.coord.cmp g.coord.ring g g6 [] :=
    fun hm hs => ⟨by simpa using hm.taken, by simpa using hm.sent, by simp, hs, by simp, by simp⟩
  rcases h with ⟨hc, h⟩ | ⟨g12, h, hp⟩
  · have e : g' = g5 := h
    rw [e]
    exact ⟨a2, ⟨[], mute a1 a3⟩, fun h => (by rw [hc] at h; cases h)⟩
  · obtain ⟨b1, b2⟩ := dialSeeds_still (cfg := cfg) (env := env) (X := X) (T := T) g5 now
    have b3 := moves_sealed (dialSeeds_moves (cfg := cfg) (env := env) (X := X) (T := T) (E := E) g5 now)
    obtain ⟨c1, c2⟩ := tame_moves_still h
    have c3 := moves_sealed h
    have d1 := (a1.trans b1).trans c1
    have d2 := (a2.trans b2).trans c2
    have d3 := Nat.le_trans (Nat.le_trans a3 b3) c3
    rcases hp with ⟨hc, hp⟩ | hp
    · have e : g' = g12 := hp
      rw [e]
      exact ⟨d2, ⟨[], mute d1 d3⟩, fun h => (by rw [hc] at h; cases h)⟩
    · have e : g' = _ := hp
      rw [e]
      obtain ⟨m1, m2, fates, m3⟩ := drainTransmits_mailed (cfg := cfg) (env := env) (X := X) (T := T) hE
        (g12.coord.ep.net.transmits.length + 1) g12 (Nat.lt_succ_self _)
      rw [d2.cmp, d2.ring] at m3
      refine ⟨d2.trans m2, ⟨fates, ?_⟩, fun _ => m1⟩
      exact ⟨by rw [m3.taken, d1.taken], by rw [m3.sent, d1.sent], m3.fate, Nat.le_trans d3 m3.sealed,
        fun k hk => ⟨Nat.le_trans d3 (m3.draws k hk).1, (m3.draws k hk).2⟩, m3.fresh⟩

/-- No other call takes a packet or sends a datagram, and settings change only as asked. -/
theorem act_mute {g : Engine I A C S} (op : EOp I A C S) (h1 : ∀ now d, op ≠ .pump now d) :
    let g' := (g.act cfg env X T E op).1
    Mute g g' ∧ g'.sealed = g.sealed ∧
    ((∀ r, op ≠ .setEncryption r) → g'.coord.ring = g.coord.ring) ∧
    ((∀ c, op ≠ .setCompression c) → g'.coord.cmp = g.coord.cmp) := by
  intro g'
  have same : Mute g g ∧ g.sealed = g.sealed ∧ ((∀ r, op ≠ .setEncryption r) → g.coord.ring = g.coord.ring) ∧
      ((∀ c, op ≠ .setCompression c) → g.coord.cmp = g.coord.cmp) := ⟨⟨rfl, rfl⟩, rfl, fun _ => rfl, fun _ => rfl⟩
  have keep : ∀ {op' : XOp I A}, Still op' → Mute g (g.call cfg env X T op').1 ∧ (g.call cfg env X T op').1.sealed = g.sealed ∧
      ((∀ r, op ≠ .setEncryption r) → (g.call cfg env X T op').1.coord.ring = g.coord.ring) ∧
      ((∀ c, op ≠ .setCompression c) → (g.call cfg env X T op').1.coord.cmp = g.coord.cmp) := by
    intro op' hs
    obtain ⟨k1, k2⟩ := call_still (cfg := cfg) (env := env) (X := X) (T := T) g hs
    exact ⟨k1, rfl, fun _ => k2.ring, fun _ => k2.cmp⟩
  have still : ∀ {op : XOp I A}, op ≠ .direct .pollTransmit → (∀ r, op ≠ .setEncryption r) → (∀ c, op ≠ .setCompression c) → Still op :=
    fun h1 h2 h3 => ⟨h1, h2, h3⟩
  cases op with
  | world io => exact ⟨⟨rfl, rfl⟩, rfl, fun _ => rfl, fun _ => rfl⟩
  | pump now d => exact absurd rfl (h1 now d)
  | join s =>
    simp only [g', act]
    split
    · exact same
    · exact ⟨⟨rfl, rfl⟩, rfl, fun _ => rfl, fun _ => rfl⟩
  | leave now =>
    obtain ⟨k1, k2⟩ := call_still (cfg := cfg) (env := env) (X := X) (T := T) { g with seeds := [] } (op := .leave now none)
      ⟨by simp, by simp, by simp⟩
    exact ⟨⟨k1.taken, k1.sent⟩, rfl, fun _ => k2.ring, fun _ => k2.cmp⟩
  | sendReliable dst payload now => exact keep (still (by simp) (by simp) (by simp))
  | send dst payload =>
    simp only [g', act]
    split
    · exact same
    · exact keep (still (by simp) (by simp) (by simp))
  | sendMany dst payloads =>
    simp only [g', act]
    split
    · exact same
    · exact keep (still (by simp) (by simp) (by simp))
  | ping node now => exact keep (still (by simp) (by simp) (by simp))
  | start now => exact keep (still (by simp) (by simp) (by simp))
  | injectAlive id peer now =>
    simp only [g', act]
    split
    · exact same
    · exact keep (still (by simp) (by simp) (by simp))
  | queueUser rank data => exact keep (still (by simp) (by simp) (by simp))
  | updateMeta m => exact keep (still (by simp) (by simp) (by simp))
  | setLocalState b => exact keep (still (by simp) (by simp) (by simp))
  | setAckPayload b => exact keep (still (by simp) (by simp) (by simp))
  | setCompression cmp =>
    simp only [g', act]
    split
    · exact same
    · refine ⟨⟨?_, rfl⟩, rfl, fun _ => step_ring g.coord _ (by simp), fun h => absurd rfl (h cmp)⟩
      show packetsTaken (g.hist ++ [(.setCompression cmp, _)]) = _
      rw [packets_append, packets_none (by simp), List.append_nil]
  | setEncryption ring =>
    simp only [g', act]
    split
    · exact same
    · split
      · exact same
      · refine ⟨⟨?_, rfl⟩, rfl, fun h => absurd rfl (h ring), fun _ => step_cmp g.coord _ (by simp)⟩
        show packetsTaken (g.hist ++ [(.setEncryption ring, _)]) = _
        rw [packets_append, packets_none (by simp), List.append_nil]
  | pollEvent =>
    have hm : EMovesP cfg env X T E (Tame E) g g' := .one (.event g)
    obtain ⟨k1, k2⟩ := tame_moves_still hm
    refine ⟨k1, ?_, fun _ => k2.ring, fun _ => k2.cmp⟩
    simp only [g', act]
    split <;> (rename_i h; have h1 := congrArg Prod.fst h; simp only at h1; subst h1; rfl)

theorem probe_ok (B : Backends) (ring : Option Keyring) : probeKeys B ring = true := by
  unfold probeKeys
  split
  · rfl
  · next r =>
    rw [List.all_eq_true]
    intro k _
    obtain ⟨f1, f2⟩ := algorithm_fits k
    unfold encEncrypt
    simp only [f1]
    revert f1 f2
    generalize k.algorithm = a
    intro f1 f2
    cases a with
    | unknown t => exact absurd rfl (f2 t)
    | _ => rfl

omit [DecidableEq A] [DecidableEq I] in
theorem tryNew_running [DecidableEq A] [DecidableEq I] {t0 : Nat} {e0 : Ep I A} (h : Ep.tryNew cfg env t0 = .ok e0) : e0.isRunning = true := by
  have := Ep.tryNew_core h
  simp [Ep.isRunning, this, Core.init, Core.emit, Core.broadcast]

variable {e0 : Ep I A} {cmp0 : CmpOptions} {io0 : S} {handles : List C} {listener : Option C}

theorem leave_stops {t0 : Nat} (hnew : Ep.tryNew cfg env t0 = .ok e0) {g : Engine I A C S}
    (hr : Reached cfg env X T E e0 cmp0 io0 handles listener g) (now : Nat) (f : Option Bytes) :
    (g.coord.step cfg env X T (.leave now f)).1.ep.isRunning = false := by
  have := (quit_leave (X := X) (T := T) hnew cmp0 (opsOf g) now f).off
  rw [← (traced hr).1] at this
  exact this

/-- The settings after one call. -/
theorem step_settings (hE : ChecksumKnown E) {t0 : Nat} (hnew : Ep.tryNew cfg env t0 = .ok e0) {g : Engine I A C S}
    (hr : Reached cfg env X T E e0 cmp0 io0 handles listener g) (op : EOp I A C S) :
    let g' := (g.act cfg env X T E op).1
    (g'.coord.ep.isRunning, g'.coord.cmp, g'.coord.ring) = Spec.settle (g.coord.ep.isRunning, g.coord.cmp, g.coord.ring) op := by
  intro g'
  have hr' : ∀ op', Plain E op' → Reached cfg env X T E e0 cmp0 io0 handles listener (g.call cfg env X T op').1 :=
    fun op' hp => hr.trans (EMovesP.one (.call g op' hp))
  by_cases h1 : ∃ now d, op = .pump now d
  · obtain ⟨now, d, rfl⟩ := h1
    obtain ⟨k1, _, _⟩ := pump_mailed (cfg := cfg) (env := env) (X := X) (T := T) hE (nodup_moves hr Map.nodup_nil) now d
    obtain ⟨_, _, _, k4⟩ := pump_seeds hnew hr now d
    have : Spec.settle (g.coord.ep.isRunning, g.coord.cmp, g.coord.ring) (.pump now d : EOp I A C S) =
        (g.coord.ep.isRunning, g.coord.cmp, g.coord.ring) := by simp [Spec.settle]
    rw [this]
    exact Prod.ext k4 (Prod.ext k1.cmp k1.ring)
  have h1 : ∀ now d, op ≠ .pump now d := fun now d h => h1 ⟨now, d, h⟩
  obtain ⟨_, _, m3, m4⟩ := act_mute (cfg := cfg) (env := env) (X := X) (T := T) (E := E) (g := g) op h1
  cases op with
  | leave now =>
    have h0 : Reached cfg env X T E e0 cmp0 io0 handles listener { g with seeds := [] } :=
      hr.trans (EMovesP.one (.reseed g [] (fun _ _ _ => trivial)))
    have e : Spec.settle (g.coord.ep.isRunning, g.coord.cmp, g.coord.ring) (.leave now : EOp I A C S) =
        (false, g.coord.cmp, g.coord.ring) := by simp [Spec.settle]
    rw [e]
    exact Prod.ext (leave_stops hnew h0 now none) (Prod.ext (m4 (by simp)) (m3 (by simp)))
  | join s =>
    have e : ∀ b, Spec.settle (b, g.coord.cmp, g.coord.ring) (.join s : EOp I A C S) = (b, g.coord.cmp, g.coord.ring) :=
      fun b => by cases b <;> rfl
    rw [e]
    simp only [g', act]
    split <;> rfl
  | setCompression cmp =>
    cases hc : g.coord.ep.isRunning with
    | false => simp only [g', act, hc, Spec.settle]; simp [hc]
    | true =>
      simp only [g', act, hc, Spec.settle]
      refine Prod.ext ?_ (Prod.ext rfl (step_ring (cfg := cfg) (env := env) (X := X) (T := T) g.coord (.setCompression cmp) (by simp)))
      exact step_running (X := X) (T := T) hnew (shape hr) (.setCompression cmp) (shape (hr' (.setCompression cmp) trivial)) (by simp) hc
  | setEncryption ring =>
    cases hc : g.coord.ep.isRunning with
    | false => simp only [g', act, hc, Spec.settle]; simp [hc]
    | true =>
      simp only [g', act, hc, Spec.settle, probe_ok]
      refine Prod.ext ?_ (Prod.ext (step_cmp (cfg := cfg) (env := env) (X := X) (T := T) g.coord (.setEncryption ring) (by simp))
        (setEncryption_ring (T := T) g.coord ring))
      exact step_running (X := X) (T := T) hnew (shape hr) (.setEncryption ring) (shape (hr' (.setEncryption ring) trivial)) (by simp) hc
  | pump now d => exact absurd rfl (h1 now d)
  | _ =>
    obtain ⟨_, _, k3⟩ := act_seeds hnew hr _ h1 (by simp) (by simp)
    have m : (g'.coord.cmp, g'.coord.ring) = (g.coord.cmp, g.coord.ring) :=
      Prod.mk.injEq .. ▸ ⟨m4 (by simp), m3 (by simp)⟩
    have k3 : g'.coord.ep.isRunning = g.coord.ep.isRunning := k3
    rw [k3, m]
    cases g.coord.ep.isRunning <;> rfl

/-- A new engine is a member, with the settings it was given, and has done nothing. -/
theorem new_settings (E : EEnv S C A) {t0 : Nat} (hnew : Ep.tryNew cfg env t0 = .ok e0) (cmp : CmpOptions) (ring : Option Keyring) :
    let g := Engine.new cfg env X T e0 cmp0 cmp ring io0 handles listener
    (g.coord.ep.isRunning, g.coord.cmp, g.coord.ring) = (true, cmp, ring) ∧
      packetsTaken g.hist = [] ∧ datagramsSent g.log = [] ∧ seedsAsked g.hist = [] ∧ g.seeds = [] ∧ g.sealed = 0 := by
  intro g
  refine ⟨?_, rfl, rfl, rfl, rfl, rfl⟩
  let b : Engine I A C S := { coord := Coord.new e0 cmp0, io := io0, pool := handles, listener := listener }
  have r0 : Reached cfg env X T E e0 cmp0 io0 handles listener b := .refl _
  have h1 : b.coord.ep.isRunning = true := tryNew_running hnew
  have r1 : Reached cfg env X T E e0 cmp0 io0 handles listener (b.call cfg env X T (.setCompression cmp)).1 :=
    r0.trans (EMovesP.one (.call b _ trivial))
  have h2 := step_running (X := X) (T := T) hnew (shape r0) (.setCompression cmp) (shape r1) (by simp) h1
  have r2 : Reached cfg env X T E e0 cmp0 io0 handles listener g := r1.trans (EMovesP.one (.call _ (.setEncryption ring) trivial))
  have h3 := step_running (X := X) (T := T) hnew (shape r1) (.setEncryption ring) (shape r2) (by simp) h2
  refine Prod.ext h3 (Prod.ext ?_ (setEncryption_ring (T := T) _ ring))
  exact step_cmp (cfg := cfg) (env := env) (X := X) (T := T) (b.call cfg env X T (.setCompression cmp)).1.coord (.setEncryption ring) (by simp)

theorem step_uncut {g : Engine I A C S} (op : EOp I A C S) (h : (g.step cfg env X T E op).1.cut = false) :
    g.step cfg env X T E op = g.act cfg env X T E op := by
  unfold step at h ⊢
  split
  · next hc => rw [if_pos hc] at h; simp [hc] at h
  · rfl

theorem run_snoc (g : Engine I A C S) (ops : List (EOp I A C S)) (op : EOp I A C S) :
    g.run cfg env X T E (ops ++ [op]) = ((g.run cfg env X T E ops).step cfg env X T E op).1 := by
  simp [run, List.foldl_append]

theorem run_append (g : Engine I A C S) (ops ops' : List (EOp I A C S)) :
    g.run cfg env X T E (ops ++ ops') = (g.run cfg env X T E ops).run cfg env X T E ops' := by
  simp [run, List.foldl_append]

theorem prefix_uncut (g : Engine I A C S) (ops : List (EOp I A C S)) (op : EOp I A C S)
    (h : (g.run cfg env X T E (ops ++ [op])).cut = false) : (g.run cfg env X T E ops).cut = false := by
  cases hc : (g.run cfg env X T E ops).cut with
  | false => rfl
  | true =>
    rw [run_append, cut_run _ _ hc, hc] at h
    cases h

/-- The settings after a history. -/
theorem run_settings (hE : ChecksumKnown E) {t0 : Nat} (hnew : Ep.tryNew cfg env t0 = .ok e0) (cmp : CmpOptions)
    (ring : Option Keyring) (ops : List (EOp I A C S)) :
    let g := (Engine.new cfg env X T e0 cmp0 cmp ring io0 handles listener).run cfg env X T E ops
    g.cut = false → (g.coord.ep.isRunning, g.coord.cmp, g.coord.ring) = Spec.settings cmp ring ops := by
  induction ops using List.reverseRecOn with
  | nil => intro g _; exact (new_settings E hnew cmp ring).1
  | append_singleton ops op ih =>
    intro g hc
    have h := ih (prefix_uncut _ ops op hc)
    simp only [g] at hc ⊢
    rw [run_snoc] at hc ⊢
    rw [step_uncut op hc, step_settings hE hnew (run_moves ..) op, h]
    simp [Spec.settings, List.foldl_append]

/-- Every packet of a history, and what became of it. -/
theorem run_mailed (hE : ChecksumKnown E) {t0 : Nat} (hnew : Ep.tryNew cfg env t0 = .ok e0) (cmp : CmpOptions)
    (ring : Option Keyring) (ops : List (EOp I A C S)) :
    let g := (Engine.new cfg env X T e0 cmp0 cmp ring io0 handles listener).run cfg env X T E ops
    g.cut = false → ∃ fates : List (Transmit I A × Option (Nat × A × Bytes)),
      packetsTaken g.hist = fates.map Prod.fst ∧
      datagramsSent g.log = fates.filterMap (fun f => f.2.map Prod.snd) ∧
      (∀ f ∈ fates, ∃ pre now d, pre ++ [.pump now d] <+: ops ∧
        Fate env X T E (Spec.settings cmp ring pre).2.1 (Spec.settings cmp ring pre).2.2 f.1 f.2) ∧
      (∀ k ∈ fates.filterMap (fun f => f.2.map Prod.fst), k < g.sealed) ∧
      (fates.filterMap (fun f => f.2.map Prod.fst)).Pairwise (· < ·) := by
  induction ops using List.reverseRecOn with
  | nil =>
    intro g _
    obtain ⟨_, h2, h3, _⟩ := new_settings E (X := X) (T := T) (cmp0 := cmp0) (io0 := io0) (handles := handles) (listener := listener) hnew cmp ring
    exact ⟨[], h2, h3, by simp, by simp, by simp⟩
  | append_singleton ops op ih =>
    intro g hc
    have hc0 := prefix_uncut _ ops op hc
    obtain ⟨fates, i1, i2, i3, i4, i5⟩ := ih hc0
    have hs := run_settings (cmp0 := cmp0) (io0 := io0) (handles := handles) (listener := listener) hE hnew cmp ring ops hc0
    have hr := run_moves (cfg := cfg) (env := env) (X := X) (T := T) (E := E) e0 cmp0 cmp ring io0 handles listener ops
    have hg : g = ((Engine.new cfg env X T e0 cmp0 cmp ring io0 handles listener).run cfg env X T E ops |>.act cfg env X T E op).1 := by
      simp only [g] at hc ⊢
      rw [run_snoc] at hc ⊢
      rw [step_uncut op hc]
    generalize ((Engine.new cfg env X T e0 cmp0 cmp ring io0 handles listener).run cfg env X T E ops) = g1 at *
    have i3' : ∀ f ∈ fates, ∃ pre now d, pre ++ [.pump now d] <+: ops ++ [op] ∧
        Fate env X T E (Spec.settings cmp ring pre).2.1 (Spec.settings cmp ring pre).2.2 f.1 f.2 := by
      intro f hf
      obtain ⟨pre, now, d, k1, k2⟩ := i3 f hf
      exact ⟨pre, now, d, k1.trans (List.prefix_append ..), k2⟩
    by_cases h1 : ∃ now d, op = .pump now d
    · obtain ⟨now, d, rfl⟩ := h1
      obtain ⟨_, ⟨more, m⟩, _⟩ := pump_mailed (cfg := cfg) (env := env) (X := X) (T := T) hE (nodup_moves hr Map.nodup_nil) now d
      have hg : g = g1.pump cfg env X T E now d := hg
      rw [hg]
      refine ⟨fates ++ more, by rw [m.taken, i1, List.map_append], by rw [m.sent, i2, List.filterMap_append], ?_, ?_, ?_⟩
      · intro f hf
        rcases List.mem_append.1 hf with hf | hf
        · exact i3' f hf
        · refine ⟨ops, now, d, List.prefix_refl _, ?_⟩
          rw [← hs]
          exact m.fate f hf
      · intro k hk
        rw [List.filterMap_append] at hk
        rcases List.mem_append.1 hk with hk | hk
        · exact Nat.lt_of_lt_of_le (i4 k hk) m.sealed
        · exact (m.draws k hk).2
      · rw [List.filterMap_append, List.pairwise_append]
        exact ⟨i5, m.fresh, fun a ha b hb => Nat.lt_of_lt_of_le (i4 a ha) (m.draws b hb).1⟩
    · obtain ⟨m1, m2, _, _⟩ := act_mute (cfg := cfg) (env := env) (X := X) (T := T) (E := E) (g := g1) op (fun now d h => h1 ⟨now, d, h⟩)
      rw [hg]
      exact ⟨fates, by rw [m1.taken, i1], by rw [m1.sent, i2], i3', by rw [m2]; exact i4, i5⟩

end Verif.Engine
