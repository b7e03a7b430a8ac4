import Verif.Proof.EngineSend
import Verif.Example.Engine
/-
C87-C89: what the engine does with the seeds, the packets and the settings it is given.
-/
namespace Verif.Props
open Verif Spec Coord Engine
variable {I A C S : Type} [DecidableEq I] [DecidableEq A] [DecidableEq C]
variable {cfg : Cfg I A} {env : Env I A} {X : XCfg} {T : TEnv} {E : EEnv S C A}

/-! ### C87 Every seed is asked once -/

/-- C87. While the node is a member, the members asked to let it join, followed by the seeds still waiting, are exactly
the routable seeds given to `join`, in the order they were given: none is lost and none asked twice. -/
theorem C87_asked {t0 : Nat} {e0 : Ep I A} (hnew : Ep.tryNew cfg env t0 = .ok e0) (cmp0 cmp : CmpOptions)
    (ring : Option Keyring) (io : S) (handles : List C) (listener : Option C) (ops : List (EOp I A C S))
    (hl : ∀ now, .leave now ∉ ops) :
    let g := (Engine.new cfg env X T e0 cmp0 cmp ring io handles listener).run cfg env X T E ops
    g.cut = false → seedsAsked g.hist ++ g.seeds = seedsGiven E.routable ops := by
  intro g hc
  obtain ⟨h1, _, _, h4, h5, _⟩ := new_settings E (X := X) (T := T) (cmp0 := cmp0) (io0 := io) (handles := handles)
    (listener := listener) hnew cmp ring
  have := (run_seeds hnew ops (new_moves e0 cmp0 cmp ring io handles listener) (congrArg Prod.fst h1) hl hc).1
  rw [h4, h5] at this
  simpa using this

/-- C87. When the last thing that happened is a pump, no seed waits: every routable seed given so far was asked, once. -/
theorem C87_pumped {t0 : Nat} {e0 : Ep I A} (hnew : Ep.tryNew cfg env t0 = .ok e0) (cmp0 cmp : CmpOptions)
    (ring : Option Keyring) (io : S) (handles : List C) (listener : Option C) (ops : List (EOp I A C S))
    (hl : ∀ now, .leave now ∉ ops) (now : Nat) (datagrams : List (A × Bytes)) :
    let g := (Engine.new cfg env X T e0 cmp0 cmp ring io handles listener).run cfg env X T E (ops ++ [.pump now datagrams])
    g.cut = false → seedsAsked g.hist = seedsGiven E.routable ops ∧ g.seeds = [] := by
  intro g hc
  have hc0 := prefix_uncut _ ops _ hc
  obtain ⟨h1, _, _, h4, h5, _⟩ := new_settings E (X := X) (T := T) (cmp0 := cmp0) (io0 := io) (handles := handles)
    (listener := listener) hnew cmp ring
  have hrun := (run_seeds hnew ops (new_moves e0 cmp0 cmp ring io handles listener) (congrArg Prod.fst h1) hl hc0).2
  have ha := C87_asked (X := X) (T := T) (E := E) hnew cmp0 cmp ring io handles listener (ops ++ [.pump now datagrams])
    (fun n h => by rcases List.mem_append.1 h with h | h <;> simp_all) hc
  have hs : g.seeds = [] := by
    simp only [g] at hc ⊢
    rw [Engine.run_snoc] at hc ⊢
    have e := step_uncut _ hc
    rw [e] at hc ⊢
    exact (pump_seeds hnew (run_moves ..) now datagrams).2.1 hrun hc
  have ha : seedsAsked g.hist ++ g.seeds = seedsGiven E.routable (ops ++ [.pump now datagrams]) := ha
  rw [hs, List.append_nil] at ha
  exact ⟨by rw [ha]; simp [seedsGiven], hs⟩

/-- C87. Once the node has left, no seed is asked any more, neither those still waiting nor those given later. -/
theorem C87_left {t0 : Nat} {e0 : Ep I A} (hnew : Ep.tryNew cfg env t0 = .ok e0) (cmp0 cmp : CmpOptions)
    (ring : Option Keyring) (io : S) (handles : List C) (listener : Option C) (ops ops' : List (EOp I A C S)) (now : Nat) :
    let g := Engine.new cfg env X T e0 cmp0 cmp ring io handles listener
    (g.run cfg env X T E ops).cut = false →
    seedsAsked (g.run cfg env X T E (ops ++ .leave now :: ops')).hist = seedsAsked (g.run cfg env X T E ops).hist := by
  intro g hc
  have hr := run_moves (cfg := cfg) (env := env) (X := X) (T := T) (E := E) e0 cmp0 cmp ring io handles listener ops
  have e : g.run cfg env X T E (ops ++ .leave now :: ops') =
      ((g.run cfg env X T E ops).step cfg env X T E (.leave now)).1.run cfg env X T E ops' := by
    rw [Engine.run_append]; rfl
  rw [e]
  have hs : (g.run cfg env X T E ops).step cfg env X T E (.leave now) = (g.run cfg env X T E ops).act cfg env X T E (.leave now) := by
    simp [Engine.step, hc]
  have h0 : Reached cfg env X T E e0 cmp0 io handles listener { g.run cfg env X T E ops with seeds := [] } :=
    hr.trans (EMovesP.one (.reseed _ [] (fun _ _ _ => trivial)))
  have hr' := hr.trans (step_moves (cfg := cfg) (env := env) (X := X) (T := T) (E := E) (nodup_moves hr Map.nodup_nil) (.leave now))
  rw [run_left hnew ops' hr' (by rw [hs]; exact leave_stops hnew h0 now none), hs]
  change seedsAsked ((g.run cfg env X T E ops).hist ++ [_]) = _
  rw [asked_append]
  simp [seedsAsked]

/-- Seed 0 cannot be reached; 101 and 102 are asked in order; 104, given after leaving, is not. -/
example :
    let g := Ex.g0.run Ex.cfg Ex.env Ex.X0 Ex.T0 Ex.E0 [.join [0, 101], .join [102], .pump 5 []]
    let h := Ex.g0.run Ex.cfg Ex.env Ex.X0 Ex.T0 Ex.E0 [.join [0, 101], .leave 1, .join [104], .pump 5 []]
    seedsAsked g.hist = [101, 102] ∧ g.seeds = [] ∧ g.cut = false ∧ seedsAsked h.hist = [] ∧ h.cut = false := by decide +kernel

/-! ### C88 Every packet is sent once, under the settings in force -/

/-- C88. Over any history: the packets taken from the endpoint and the datagrams sent correspond one to one and in order.
Each packet that can be encoded, for a destination that is routable and not blocked, became exactly one datagram, to that
destination, compressed, checksummed and sealed by the settings in force at the pump that sent it; every other packet was
dropped; and no nonce was drawn for two datagrams. -/
theorem C88_mail {t0 : Nat} {e0 : Ep I A} (hnew : Ep.tryNew cfg env t0 = .ok e0) (cmp0 cmp : CmpOptions)
    (ring : Option Keyring) (io : S) (handles : List C) (listener : Option C) (hE : ChecksumKnown E)
    (ops : List (EOp I A C S)) :
    let g := (Engine.new cfg env X T e0 cmp0 cmp ring io handles listener).run cfg env X T E ops
    g.cut = false → ∃ fates : List (Transmit I A × Option (Nat × A × Bytes)),
      packetsTaken g.hist = fates.map Prod.fst ∧
      datagramsSent g.log = fates.filterMap (fun f => f.2.map Prod.snd) ∧
      (∀ f ∈ fates, ∃ pre now d, pre ++ [.pump now d] <+: ops ∧
        Fate env X T E (settings cmp ring pre).2.1 (settings cmp ring pre).2.2 f.1 f.2) ∧
      (fates.filterMap (fun f => f.2.map Prod.fst)).Pairwise (· < ·) := by
  intro g hc
  obtain ⟨f, h1, h2, h3, _, h5⟩ := run_mailed hE hnew cmp ring ops hc
  exact ⟨f, h1, h2, h3, h5⟩

/-- C88. A pump empties the endpoint's queue of packets: what it sends is what it took, under the settings in force when it
began, and nothing waits afterwards. -/
theorem C88_pump {t0 : Nat} {e0 : Ep I A} (hnew : Ep.tryNew cfg env t0 = .ok e0) (cmp0 cmp : CmpOptions)
    (ring : Option Keyring) (io : S) (handles : List C) (listener : Option C) (hE : ChecksumKnown E)
    (ops : List (EOp I A C S)) (now : Nat) (datagrams : List (A × Bytes)) :
    let g := (Engine.new cfg env X T e0 cmp0 cmp ring io handles listener).run cfg env X T E ops
    let g' := (g.step cfg env X T E (.pump now datagrams)).1
    g'.cut = false → g'.coord.ep.net.transmits = [] ∧
      ∃ fates : List (Transmit I A × Option (Nat × A × Bytes)),
        packetsTaken g'.hist = packetsTaken g.hist ++ fates.map Prod.fst ∧
        datagramsSent g'.log = datagramsSent g.log ++ fates.filterMap (fun f => f.2.map Prod.snd) ∧
        ∀ f ∈ fates, Fate env X T E (settings cmp ring ops).2.1 (settings cmp ring ops).2.2 f.1 f.2 := by
  intro g g' hc
  have hr := run_moves (cfg := cfg) (env := env) (X := X) (T := T) (E := E) e0 cmp0 cmp ring io handles listener ops
  have hc0 : g.cut = false := by
    have := prefix_uncut (cfg := cfg) (env := env) (X := X) (T := T) (E := E)
      (Engine.new cfg env X T e0 cmp0 cmp ring io handles listener) ops (.pump now datagrams)
    rw [Engine.run_snoc] at this
    exact this hc
  have hs := run_settings (cmp0 := cmp0) (io0 := io) (handles := handles) (listener := listener) hE hnew cmp ring ops hc0
  have e : g' = g.pump cfg env X T E now datagrams := congrArg Prod.fst (step_uncut (.pump now datagrams) hc)
  obtain ⟨_, ⟨fates, m⟩, h⟩ := pump_mailed (cfg := cfg) (env := env) (X := X) (T := T) hE (nodup_moves hr Map.nodup_nil) now datagrams
  rw [e] at hc ⊢
  refine ⟨h hc, fates, m.taken, m.sent, ?_⟩
  rw [← hs]
  exact m.fate

/-- A user packet to 101 is taken and sent; one to address 0, which cannot be reached, is taken and dropped. -/
example :
    let g := Ex.g0.run Ex.cfg Ex.env Ex.X0 Ex.T0 Ex.E0 [.send 101 [1, 2], .send 0 [3], .pump 5 []]
    (packetsTaken g.hist).length = 2 ∧ (datagramsSent g.log).map Prod.fst = [101] ∧ g.cut = false := by decide +kernel

/-! ### C89 Settings are in force from the call that gave them -/

/-- C89. After any history, whether the node is a member, how it compresses and the keys it seals with are as the calls
said: the last setting given while it was a member, and those it was made with before that. -/
theorem C89_settings {t0 : Nat} {e0 : Ep I A} (hnew : Ep.tryNew cfg env t0 = .ok e0) (cmp0 cmp : CmpOptions)
    (ring : Option Keyring) (io : S) (handles : List C) (listener : Option C) (hE : ChecksumKnown E)
    (ops : List (EOp I A C S)) :
    let g := (Engine.new cfg env X T e0 cmp0 cmp ring io handles listener).run cfg env X T E ops
    g.cut = false → (g.coord.ep.isRunning, g.coord.cmp, g.coord.ring) = settings cmp ring ops :=
  run_settings hE hnew cmp ring ops

/-- C89. A node that has left refuses new settings and new seeds, and is not changed by the refusal. -/
theorem C89_refused {t0 : Nat} {e0 : Ep I A} (hnew : Ep.tryNew cfg env t0 = .ok e0) (cmp0 cmp : CmpOptions)
    (ring : Option Keyring) (io : S) (handles : List C) (listener : Option C) (hE : ChecksumKnown E)
    (ops : List (EOp I A C S)) (hl : (settings cmp ring ops).1 = false) :
    let g := (Engine.new cfg env X T e0 cmp0 cmp ring io handles listener).run cfg env X T E ops
    g.cut = false → (∀ c, g.step cfg env X T E (.setCompression c) = (g, .refused)) ∧
      (∀ r, g.step cfg env X T E (.setEncryption r) = (g, .refused)) ∧
      ∀ s, g.step cfg env X T E (.join s) = (g, .refused) := by
  intro g hc
  have hs := C89_settings (X := X) (T := T) hnew cmp0 cmp ring io handles listener hE ops hc
  have hr : g.coord.ep.isRunning = false := (congrArg Prod.fst hs).trans hl
  refine ⟨fun c => ?_, fun r => ?_, fun s => ?_⟩ <;> simp [Engine.step, hc, act, hr]

/-- The node gives up encryption, and after leaving takes no new setting. -/
example :
    settings (I := Nat) (A := Nat) (C := Nat) (S := Ex.Stack) Ex.cmp0 Ex.ring0 [.setEncryption none, .leave 3, .setEncryption Ex.ring0] = (false, Ex.cmp0, none) ∧
    Ex.ring0.isSome ∧ ChecksumKnown Ex.E0 := ⟨rfl, rfl, fun _ h => by cases h⟩

end Verif.Props
