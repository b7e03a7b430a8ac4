import Verif.Proof.EngineSource
import Verif.Proof.Transform
/-
What leaves the engine is sealed under a keyring it was told to use.
-/
namespace Verif
namespace Coord
variable {I A : Type} [DecidableEq I] [DecidableEq A] {cfg : Cfg I A} {env : Env I A} {X : XCfg} {T : TEnv}

theorem setEncryption_ring (c : Coord I A) (r : Option Keyring) : (c.setEncryption T r).ring = r := by
  unfold setEncryption
  split <;> rfl

theorem accept_ring (c : Coord I A) (src : A) (now : Nat) : (c.accept cfg X src now).1.ring = c.ring := by
  unfold accept
  simp only []
  split
  · rfl
  · split <;> rfl

theorem pollAction_ring (c : Coord I A) : c.pollAction.1.ring = c.ring := by
  unfold pollAction
  split
  · rfl
  · split <;> rfl

/-- Only the call that sets the keys changes them. -/
theorem step_ring (c : Coord I A) (op : XOp I A) (h : ∀ r, op ≠ .setEncryption r) :
    (c.step cfg env X T op).1.ring = c.ring := by
  obtain ⟨c1, h1, h2⟩ := step_moves (cfg := cfg) (env := env) (X := X) (T := T) c op
  have hm : (c.step cfg env X T op).1.ring = c1.ring := by
    generalize (c.step cfg env X T op).1 = c2 at h2
    induction h2 with
    | refl => rfl
    | snoc _ hm ih => rw [move_ring hm]; exact ih
  rw [hm]
  cases h1 with
  | plain s => exact s.ring
  | encrypt r => exact absurd rfl (h r)
  | popAction => exact pollAction_ring c
  | accept src now x => exact accept_ring c src now
  | _ => rfl

end Coord

namespace Engine
open Verif Coord Spec
variable {I A C S : Type} [DecidableEq I] [DecidableEq A] [DecidableEq C]
variable {cfg : Cfg I A} {env : Env I A} {X : XCfg} {T : TEnv} {E : EEnv S C A} {P : XOp I A → Prop}

theorem encryptPayload_sealed {B : Backends} {r : Keyring} {nonce d w : Bytes}
    (h : encryptPayload B (some r) nonce d = .ok w) : SealedUnder B r w := by
  simp only [encryptPayload, encodeEncryptedFrame] at h
  split at h
  · cases h
  · next ct hc =>
    cases h
    refine ⟨nonce, d, ?_⟩
    unfold encEncrypt at hc
    split at hc
    · cases hc
    · split at hc
      · cases hc
      · cases hc
        rw [algorithm_tag]; rfl

theorem sendGossip_sealed {B : Backends} {cmp : CmpOptions} {chk : Option ChkAlgo} {r : Keyring} {nonce d w : Bytes}
    (h : sendGossip B ⟨cmp, chk, some r⟩ nonce d = .ok w) : SealedUnder B r w := by
  unfold sendGossip at h
  split at h
  · cases h
  · split at h
    · cases h
    · next w' hw => cases h; exact encryptPayload_sealed hw

/-- No datagram was sent. -/
def NoD (l : List (S × Act A C)) : Prop := ∀ s dst w, (s, Act.datagram dst w) ∉ l

omit [DecidableEq I] [DecidableEq A] [DecidableEq C] in
theorem abortExchange_log (g : Engine I A C S) (x : Nat) :
    ∃ l, (g.abortExchange E x).log = g.log ++ l ∧ NoD l := by
  unfold abortExchange
  split
  · exact ⟨[], by simp, by simp [NoD]⟩
  · simp only []
    split
    · exact ⟨[], by simp, by simp [NoD]⟩
    · exact ⟨_, by simp only [Engine.abort, give, note, List.append_assoc]; rfl, by simp [NoD]⟩

omit [DecidableEq I] [DecidableEq A] in
theorem teardown_log (g : Engine I A C S) (x now : Nat) :
    ∃ l, (g.teardown E x now).log = g.log ++ l ∧ NoD l := by
  unfold teardown
  split
  · exact ⟨[], by simp, by simp [NoD]⟩
  · split
    · exact ⟨[], by simp, by simp [NoD]⟩
    · split
      · exact ⟨_, by simp only [give, note, List.append_assoc]; rfl, by simp [NoD]⟩
      · split
        · exact ⟨[], by simp, by simp [NoD]⟩
        · split
          · exact ⟨[], by simp, by simp [NoD]⟩
          · split
            · exact ⟨_, by simp only [Engine.close]; rfl, by simp [NoD]⟩
            · exact ⟨_, by simp only [Engine.abort, give, note, List.append_assoc]; rfl, by simp [NoD]⟩

omit [DecidableEq I] [DecidableEq A] in
theorem settle_log (io : S) (now : Nat) (g : Engine I A C S) (a : Nat × Outcome C) :
    ∃ l, (settle E io now g a).log = g.log ++ l ∧ NoD l := by
  unfold settle
  split
  · exact ⟨_, by simp only [Engine.close]; rfl, by simp [NoD]⟩
  · exact ⟨_, by simp only [Engine.abort, give, note, List.append_assoc]; rfl, by simp [NoD]⟩
  · exact ⟨[], by simp, by simp [NoD]⟩

omit [DecidableEq I] [DecidableEq A] in
theorem reapOne_log (now : Nat) (g : Engine I A C S) (c : C) :
    ∃ l, (reapOne E now g c).log = g.log ++ l ∧ NoD l := by
  unfold reapOne
  split
  · exact ⟨[], by simp, by simp [NoD]⟩
  · split
    · exact ⟨_, by simp only [give, note, List.append_assoc]; rfl, by simp [NoD]⟩
    · split
      · exact ⟨_, by simp only [Engine.abort, give, note, List.append_assoc]; rfl, by simp [NoD]⟩
      · exact ⟨[], by simp, by simp [NoD]⟩

theorem event_log (g : Engine I A C S) : (g.act cfg env X T E .pollEvent).1.log = g.log := by
  simp only [act, call]
  split <;> (rename_i h; obtain ⟨h1, _⟩ := Prod.mk.inj h; subst h1; rfl)

/-- The datagrams of a move are sealed under the keyring in force. -/
theorem move_log {g g' : Engine I A C S} (hm : EMoveP cfg env X T E P g g') :
    ∃ l, g'.log = g.log ++ l ∧ ∀ s dst w, (s, Act.datagram dst w) ∈ l → P (.direct .pollTransmit) ∧ ∃ nonce payload,
      sendGossip T.B ⟨g.coord.cmp, E.checksum, g.coord.ring⟩ nonce payload = .ok w := by
  have no : ∀ l : List (S × Act A C), g'.log = g.log ++ l → NoD l →
      ∃ l, g'.log = g.log ++ l ∧ ∀ s dst w, (s, Act.datagram dst w) ∈ l → P (.direct .pollTransmit) ∧ ∃ nonce payload,
        sendGossip T.B ⟨g.coord.cmp, E.checksum, g.coord.ring⟩ nonce payload = .ok w :=
    fun l h1 h2 => ⟨l, h1, fun s dst w h => absurd h (h2 s dst w)⟩
  cases hm with
  | aside s => exact no [] (by rw [s.log, List.append_nil]) (by simp [NoD])
  | reseed => exact no [] (by simp) (by simp [NoD])
  | event => exact no [] (by rw [event_log, List.append_nil]) (by simp [NoD])
  | datagram t dst b0 nonce b h0 h1 h2 h3 h4 =>
    refine ⟨[(g.io, .datagram dst b)], rfl, fun s dst' w hw => ⟨h0, nonce, b0, ?_⟩⟩
    simp only [List.mem_singleton, Prod.mk.injEq, Act.datagram.injEq] at hw
    rw [hw.2.2]; exact h2
  | close x now h =>
    obtain ⟨l, h1, h2⟩ := teardown_log (E := E) (g.call cfg env X T .pollAction).1 x now
    exact no l h1 h2
  | abort x h =>
    obtain ⟨l, h1, h2⟩ := abortExchange_log (E := E) (g.call cfg env X T .pollAction).1 x
    exact no l h1 h2
  | settle io now x k o =>
    obtain ⟨l, h1, h2⟩ := settle_log (E := E) io now g (x, o)
    exact no l h1 h2
  | reap c now =>
    obtain ⟨l, h1, h2⟩ := reapOne_log (E := E) now g c
    exact no l h1 h2
  | write x k c => exact no _ rfl (by simp [NoD])
  | promote => exact no [] (by simp [promoteEstablished]) (by simp [NoD])
  | call => exact no [] (by simp [call]) (by simp [NoD])
  | packet => exact no [] (by simp [call]) (by simp [NoD])
  | connect => exact no [] (by simp [call]) (by simp [NoD])
  | shutdown => exact no [] (by simp [call]) (by simp [NoD])
  | actionNone => exact no [] (by simp [call]) (by simp [NoD])
  | fetch => exact no [] (by simp [call]) (by simp [NoD])
  | fetchNone => exact no [] (by simp [call]) (by simp [NoD])
  | dialOk => exact no _ (by simp only [note]; rfl) (by simp [NoD])
  | listen => exact no _ (by simp only [note]; rfl) (by simp [NoD])
  | lost => exact no _ (by simp only [note, call]; rfl) (by simp [NoD])
  | accept => exact no _ (by simp only [note, call]; rfl) (by simp [NoD])
  | read => exact no _ (by simp only [note, call]; rfl) (by simp [NoD])
  | eof => exact no _ (by simp only [note, call]; rfl) (by simp [NoD])
  | shut => exact no _ (by simp only [Engine.close]; rfl) (by simp [NoD])
  | refuse => exact no _ (by simp only [note, give, Engine.abort, List.append_assoc]; rfl) (by simp [NoD])
  | decline => exact no _ (by simp only [note, give, call, Engine.abort, List.append_assoc]; rfl) (by simp [NoD])
  | dialRefused => exact no _ (by simp only [note, give, call, Engine.abort, List.append_assoc]; rfl) (by simp [NoD])
  | dialError => exact no _ (by simp only [note, give, call, Engine.abort, List.append_assoc]; rfl) (by simp [NoD])

variable {e0 : Ep I A} {cmp0 : CmpOptions} {io0 : S} {handles : List C} {listener : Option C}

omit [DecidableEq I] [DecidableEq A] in
theorem written_emit {x : Nat} {o : XOut I A} (h : written (emitOf x o) ≠ []) :
    ∃ peer b, o = .bytes (some (x, peer, b)) := by
  unfold emitOf at h
  split at h
  · next y peer b =>
    split at h
    · next e => subst e; exact ⟨peer, b, rfl⟩
    · exact absurd rfl h
  · split at h <;> exact absurd rfl h
  · split at h <;> exact absurd rfl h
  · exact absurd rfl h

theorem bytes_poll {c : Coord I A} {op : XOp I A} {e : Nat × A × Bytes}
    (h : (c.step cfg env X T op).2 = .bytes (some e)) : ∃ rest, c.out = e :: rest := by
  cases op with
  | pollTransport =>
    simp only [Coord.step, XOut.bytes.injEq, pollTransport] at h
    split at h
    · cases h
    · next e' rest he => cases h; exact ⟨rest, he⟩
  | _ => cases h

/-- What was sent is sealed under a keyring that was in force. -/
structure Closed (cfg : Cfg I A) (env : Env I A) (T : TEnv) (E : EEnv S C A) (label : Option Bytes) (R : Option Keyring → Prop) (g : Engine I A C S) : Prop where
  ring : R g.coord.ring
  gossip : ∀ s dst w, (s, Act.datagram dst w) ∈ g.log → ∃ r cmp nonce payload, R r ∧
    sendGossip T.B ⟨cmp, E.checksum, r⟩ nonce payload = .ok w
  stream : ∀ x, ∃ r u, R r ∧ (u = [] ∨ SealedUnit T.B (Spoken cfg env false) r u) ∧ written (given g x) <+: header label ++ u

theorem closed_inv {t0 : Nat} (hnew : Ep.tryNew cfg env t0 = .ok e0) (hP : ∀ op, P op → Plain E op)
    {R : Option Keyring → Prop} (hR : ∀ r, P (.setEncryption r) → R r) {g0 g : Engine I A C S}
    (hr0 : Reached cfg env X T E e0 cmp0 io0 handles listener g0) (h : EMovesP cfg env X T E P g0 g)
    (h0 : Closed cfg env T E X.label R g0) : Closed cfg env T E X.label R g := by
  induction h with
  | refl => exact h0
  | @snoc b c hr hm ih =>
    have hrb : Reached cfg env X T E e0 cmp0 io0 handles listener b := hr0.trans (hr.mono hP)
    obtain ⟨l, hl1, hl2⟩ := move_log hm
    have hgossip : ∀ s dst w, (s, Act.datagram dst w) ∈ c.log → ∃ r cmp nonce payload, R r ∧
        sendGossip T.B ⟨cmp, E.checksum, r⟩ nonce payload = .ok w := by
      intro s dst w hw
      rw [hl1] at hw
      rcases List.mem_append.1 hw with hw | hw
      · exact ih.gossip s dst w hw
      · obtain ⟨_, nonce, payload, h⟩ := hl2 s dst w hw
        exact ⟨_, _, nonce, payload, ih.ring, h⟩
    rcases move_op hP hm with ⟨h1, h2, _⟩ | ⟨op, h1, h2, h3, _, _⟩
    · exact ⟨h1 ▸ ih.ring, hgossip, fun x => by rw [given_none h2]; exact ih.stream x⟩
    · refine ⟨?_, hgossip, fun x => ?_⟩
      · rw [h2]
        by_cases hop : ∃ r, op = .setEncryption r
        · obtain ⟨r, rfl⟩ := hop
          rcases h3 with h3 | h3
          · show R (b.coord.setEncryption T r).ring
            rw [setEncryption_ring]; exact hR r h3
          · exact absurd rfl (h3 r)
        · rw [step_ring b.coord op (fun r e => hop ⟨r, e⟩)]; exact ih.ring
      · rw [given_one h1, written_append]
        by_cases hw : written (emitOf x (b.coord.step cfg env X T op).2) = []
        · rw [hw, List.append_nil]; exact ih.stream x
        · obtain ⟨peer, bs, ho⟩ := written_emit hw
          obtain ⟨rest, hout⟩ := bytes_poll ho
          obtain ⟨r, u, g1, g2, g3⟩ := (drive hnew hrb x).bytes
          have hv : (b.coord.view x).out = (peer, bs) :: (rest.filter (fun e => e.1 = x)).map Prod.snd := by
            simp [Coord.view, hout]
          refine ⟨b.coord.ring, u, ih.ring, ?_, List.IsPrefix.trans ?_ g2⟩
          · rw [← g3 (by rw [hv]; simp)]; exact g1
          · rw [ho, hv]
            refine ⟨flat ((rest.filter (fun e => e.1 = x)).map Prod.snd), ?_⟩
            simp [emitOf, written, flat]

theorem new_closed (e0 : Ep I A) (cmp0 cmp : CmpOptions) (ring : Option Keyring) (io : S) (handles : List C)
    (listener : Option C) {R : Option Keyring → Prop} (hR : R ring) :
    Closed cfg env T E X.label R (Engine.new cfg env X T e0 cmp0 cmp ring io handles listener) where
  ring := by
    show R (Coord.setEncryption T _ ring).ring
    rw [setEncryption_ring]; exact hR
  gossip := fun s dst w h => by cases h
  stream := fun x => ⟨ring, [], hR, .inl rfl, ⟨header X.label, by rw [List.append_nil]; rfl⟩⟩

/-- Every history: what was sent is sealed under a keyring the engine was told to use. -/
theorem closed_run {t0 : Nat} (hnew : Ep.tryNew cfg env t0 = .ok e0) (cmp : CmpOptions) (ring : Option Keyring)
    (ops : List (EOp I A C S)) : Closed cfg env T E X.label (Configured ring ops)
      ((Engine.new cfg env X T e0 cmp0 cmp ring io0 handles listener).run cfg env X T E ops) := by
  have hr0 := new_moves (cfg := cfg) (env := env) (X := X) (T := T) (E := E) e0 cmp0 cmp ring io0 handles listener
  suffices H : ∀ (l : List (EOp I A C S)) (g : Engine I A C S), (∀ op ∈ l, op ∈ ops) →
      Reached cfg env X T E e0 cmp0 io0 handles listener g → Closed cfg env T E X.label (Configured ring ops) g →
      Closed cfg env T E X.label (Configured ring ops) (g.run cfg env X T E l) from
    H ops _ (fun _ h => h) hr0 (new_closed _ _ _ _ _ _ _ (.inl rfl))
  intro l
  induction l with
  | nil => intro g _ _ h; exact h
  | cons op l ih =>
    intro g hl hr h
    have hn : g.conns.NodupKeys := nodup_moves hr Map.nodup_nil
    have hs := step_sets (cfg := cfg) (env := env) (X := X) (T := T) (E := E) hn op
    refine ih _ (fun o ho => hl o (List.mem_cons_of_mem _ ho)) (hr.trans (hs.mono (fun _ h => h.1))) ?_
    exact closed_inv hnew (fun _ h => h.1) (fun r hr => .inr (hr.2.1 r rfl ▸ hl op (List.mem_cons_self ..))) hr hs h

end Engine
end Verif
