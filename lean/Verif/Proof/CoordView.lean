import Verif.Proof.CoordAuth
import Verif.Spec.Driver
/-
What the coordinator holds of one exchange, and how each move and each call changes it. Invariants that speak of one
exchange are proved on this view.
-/
namespace Verif

/-- What the coordinator holds of one exchange: whether its id was handed out, its bridge and its description, the
endpoint calls made for it so far, and its entries in the driver's queues. -/
structure XV (I A : Type) where
  born : Bool
  br : Option (Bridge I A)
  info : Option (XMeta A)
  log : List (Ep.Op I A)
  out : List (A × Bytes)
  conn : List (A × Nat)
  down : List Teardown

namespace Coord
variable {I A : Type}

def view (c : Coord I A) (x : Nat) : XV I A where
  born := decide (x < c.nextX)
  br := c.conns.get? x
  info := c.metas.get? x
  log := (c.calls.filter (fun e => e.1 = some x)).map Prod.snd
  out := (c.out.filter (fun e => e.1 = x)).map Prod.snd
  conn := (c.connects.filter (fun e => e.1 = x)).map Prod.snd
  down := (c.teardowns.filter (fun e => e.2 = x)).map Prod.fst

theorem view_ext {c c' : Coord I A} {x : Nat} (h1 : c'.nextX = c.nextX) (h2 : c'.conns.get? x = c.conns.get? x)
    (h3 : c'.metas.get? x = c.metas.get? x)
    (h4 : c'.calls.filter (fun e => e.1 = some x) = c.calls.filter (fun e => e.1 = some x))
    (h5 : c'.out.filter (fun e => e.1 = x) = c.out.filter (fun e => e.1 = x))
    (h6 : c'.connects.filter (fun e => e.1 = x) = c.connects.filter (fun e => e.1 = x))
    (h7 : c'.teardowns.filter (fun e => e.2 = x) = c.teardowns.filter (fun e => e.2 = x)) : c'.view x = c.view x := by
  unfold view; rw [h1, h2, h3, h4, h5, h6, h7]

/-- A piece for the outbound queue, unless there is nothing to say. -/
def piece (peer : A) (b : Bytes) : List (A × Bytes) := if b = [] then [] else [(peer, b)]

/-- The report of an exchange that was started here. -/
def report (x : Nat) (m : XMeta A) (ok : Bool) : List (Ep.Op I A) :=
  match m.kind with
  | none => []
  | some kind => [.external (some ⟨x, m.peer, ok, kind⟩)]

/-- The dial of an exchange that never became a stream is given up. -/
def giveUp (m : XMeta A) : List (Ep.Op I A) :=
  match m.mint with
  | some (.outbound sid) => [.dialFailed sid]
  | _ => []

section
variable [DecidableEq I] [DecidableEq A] (cfg : Cfg I A) (env : Env I A) (X : XCfg) (T : TEnv)

/-- How a move changes the view of exchange `x`. `K` is what is known of a stream minted for a described exchange. -/
inductive VStep (N : Nat → Bridge I A → Prop) (L : Prop) (K : XMeta A → Stream I A → Prop) (x : Nat) (ring : Option Keyring) : XV I A → XV I A → Prop
  | refl (v : XV I A) : VStep N L K x ring v v
  | call (v : XV I A) (op : Ep.Op I A) : Plain op → VStep N L K x ring v { v with log := v.log ++ [op] }
  | bridge (v : XV I A) {b b' : Bridge I A} : v.br = some b → BStep env T b b' →
      VStep N L K x ring v { v with br := some b' }
  | commit (v : XV I A) {b : Bridge I A} {s : Stream I A} {ev : PayloadEvent I A} {rest : List (PayloadEvent I A)}
      {r : Ep I A × Bridge I A} (cmp : CmpOptions) (e : Ep I A) (now : Nat) : v.br = some b → b.stream = some s →
      s.endpointEvents = ev :: rest → b.Late → Bridge.CommitOne cfg env T cmp now e b s ev rest r →
      (b.isTerminal = true ∨ b.Swept now) → N now b →
      VStep N L K x ring v { v with br := some r.2, log := v.log ++ [.streamEvent (.payload ev) now] }
  | shutdown (v : XV I A) {b : Bridge I A} {m : XMeta A} : v.br = some b → b.isTerminal = false → b.finSent = true →
      v.info = some m → m.finEmitted = false →
      VStep N L K x ring v { v with info := some { m with finEmitted := true }, down := v.down ++ [.shutdown] }
  | collect (v : XV I A) {b : Bridge I A} {m : XMeta A} : v.br = some b → v.info = some m →
      VStep N L K x ring v { v with br := some b.transmit.1, out := v.out ++ piece m.peer b.transmit.2 }
  | reapFailed (v : XV I A) {b : Bridge I A} {m : XMeta A} : v.br = some b → v.info = some m → b.isFailed = true →
      b.evs = [] →
      VStep N L K x ring v { v with br := none, info := none, out := [], down := v.down ++ [.abort]
                                    log := v.log ++ report x m false ++ giveUp m }
  | reapClosed (v : XV I A) {b : Bridge I A} {m : XMeta A} : v.br = some b → v.info = some m → b.phase = .bothClosed →
      b.evs = [] →
      VStep N L K x ring v { v with br := none, info := none, out := v.out ++ piece m.peer b.transmit.2
                                    down := v.down ++ [.close], log := v.log ++ report x m true ++ giveUp m }
  | dial (v : XV I A) (peer : A) (sid deadline : Nat) (cmp : CmpOptions) (kind : Option ExKind) : v.born = false →
      VStep N L K x ring v { v with
        born := true
        br := some (Bridge.new x (.newDialer X.label X.skipLabel) deadline cmp ring cfg.maxStreamFrameSize)
        info := some { peer, mint := some (.outbound sid), finEmitted := false, kind, outbound := true }
        conn := v.conn ++ [(peer, sid)] }
  | mintOk (v : XV I A) {b : Bridge I A} {m : XMeta A} {mint : Mint A} {s : Stream I A} (e : Ep I A) (now : Nat) :
      v.br = some b → v.info = some m → b.isTerminal = false → b.isHandshaking = false → m.mint = some mint →
      (e.step cfg env (mintOp mint now)).2 = .stream (some s) → K m s → N now b →
      VStep N L K x ring v { v with br := some (b.promote s), info := some { m with mint := none }
                                    log := v.log ++ [mintOp mint now] }
  | mintOut (v : XV I A) {b : Bridge I A} {m : XMeta A} {sid : Nat} (now : Nat) :
      v.br = some b → v.info = some m → b.isTerminal = false → b.isHandshaking = false →
      m.mint = some (.outbound sid) →
      VStep N L K x ring v { v with br := none, info := none, out := [], conn := [], down := v.down ++ [.abort]
                                    log := v.log ++ [.dialSucceeded sid now] ++ report x m false }
  | mintIn (v : XV I A) {b : Bridge I A} {m : XMeta A} {peer : A} (now : Nat) :
      v.br = some b → v.info = some m → b.isTerminal = false → b.isHandshaking = false →
      m.mint = some (.inbound peer) →
      VStep N L K x ring v { v with br := none, info := none, out := [], down := [.abort]
                                    log := v.log ++ [.acceptStream peer now] }
  | cancel (v : XV I A) : L → v.conn = [] → v.out ≠ [] →
      VStep N L K x ring v { v with br := none, info := none, out := [], down := [.abort] }

/-- How the first effect of a call changes the view of exchange `x`, what it hands to the driver for it, and the
keyring afterwards. -/
inductive VFirst (x : Nat) (ring : Option Keyring) :
    XV I A → XOp I A → List (XEmit A) → Option Keyring → XV I A → Prop
  | keep (v : XV I A) (op : XOp I A) : (∀ y bytes eof now, op = .data y bytes eof now → y ≠ x) →
      VFirst x ring v op [] ring v
  | feed (v : XV I A) (bytes : Bytes) (eof : Bool) (now : Nat) :
      VFirst x ring v (.data x bytes eof now) [] ring { v with br := v.br.map (feedAll env T bytes eof now) }
  | dialFailed (v : XV I A) (now : Nat) : VFirst x ring v (.dialFailed x now) [] ring
      { v with br := v.br.map (fun b => b.fail .dialRetired) }
  | transportError (v : XV I A) (now : Nat) : VFirst x ring v (.transportError x now) [] ring
      { v with br := v.br.map (fun b => b.fail .connectionLost) }
  | leave (v : XV I A) (now : Nat) (farewell : Option Bytes) :
      VFirst x ring v (.leave now farewell) [] ring { v with conn := [] }
  | encrypt (v : XV I A) (ring' : Option Keyring) : ring ≠ ring' →
      VFirst x ring v (.setEncryption ring') [] ring'
        { v with br := v.br.map (fun b => b.setEncryption ring'), out := []
                 conn := if v.br.any (fun b => !b.isFailed) then [] else v.conn
                 down := v.down ++ if v.br.any (fun b => !b.isFailed) then [.abort] else [] }
  | compress (v : XV I A) (cmp : CmpOptions) : VFirst x ring v (.setCompression cmp) [] ring
      { v with br := v.br.map (fun b => b.setCompression cmp) }
  | popOut (v : XV I A) {e : A × Bytes} {rest : List (A × Bytes)} : v.out = e :: rest →
      VFirst x ring v .pollTransport [.bytes e.2] ring { v with out := rest }
  | popConnect (v : XV I A) {peer : A} {sid : Nat} {rest : List (A × Nat)} : v.conn = (peer, sid) :: rest →
      VFirst x ring v .pollAction [.connect peer sid] ring { v with conn := rest }
  | popDown (v : XV I A) {t : Teardown} {rest : List Teardown} : v.conn = [] → v.out = [] → v.down = t :: rest →
      VFirst x ring v .pollAction [.down t] ring { v with down := rest }
  | accept (v : XV I A) (src : A) (now : Nat) (cmp : CmpOptions) : v.born = false →
      VFirst x ring v (.accept src now) [] ring { v with
        born := true
        br := some (Bridge.new x (.newAcceptor X.label X.skipLabel) (now + X.acceptDeadline) cmp ring
          cfg.maxStreamFrameSize)
        info := some { peer := src, mint := some (.inbound src), finEmitted := false, kind := none, outbound := false } }
end

section
variable [DecidableEq I] [DecidableEq A] {cfg : Cfg I A} {env : Env I A} {X : XCfg} {T : TEnv} {N : Nat → Bridge I A → Prop} {L : Prop}

theorem view_same {c c' : Coord I A} (s : Same c c') (x : Nat) : c'.view x = c.view x :=
  view_ext s.nextX (by rw [s.conns]) (by rw [s.metas]) (by rw [s.calls]) (by rw [s.out]) (by rw [s.connects])
    (by rw [s.teardowns])

theorem view_call (c : Coord I A) (y : Option Nat) (op : Ep.Op I A) (x : Nat) :
    (c.callEp cfg env y op).1.view x =
      { c.view x with log := (c.view x).log ++ if y = some x then [op] else [] } := by
  simp only [view, callEp, List.filter_append, List.map_append]
  congr 2
  by_cases h : y = some x <;> simp [h]

theorem view_put (c : Coord I A) (y : Nat) (b : Bridge I A) (x : Nat) :
    (c.put y b).view x = { c.view x with br := if y = x then some b else (c.view x).br } := by
  simp only [view, put, Map.get?_insert]
  rfl

theorem view_teardown (c : Coord I A) (t : Teardown) (y x : Nat) :
    (c.teardown t y).view x = { c.view x with down := (c.view x).down ++ if y = x then [t] else [] } := by
  simp only [view, teardown, List.filter_append, List.map_append]
  congr 2
  by_cases h : y = x <;> simp [h]

theorem filter_ne_self {V : Type} (l : List (Nat × V)) (x : Nat) :
    (l.filter (fun e => e.1 ≠ x)).filter (fun e => e.1 = x) = [] := by
  rw [List.filter_filter, List.filter_eq_nil_iff]
  intro e _
  by_cases h : e.1 = x <;> simp [h]

theorem filter_ne_other {V : Type} (l : List (Nat × V)) {x y : Nat} (h : y ≠ x) :
    (l.filter (fun e => e.1 ≠ y)).filter (fun e => e.1 = x) = l.filter (fun e => e.1 = x) := by
  rw [List.filter_filter]
  congr 1
  funext e
  by_cases h1 : e.1 = x
  · simp [h1]; exact fun e => h e.symm
  · simp [h1]

theorem view_purge (c : Coord I A) (y x : Nat) :
    (c.purge y).view x = { c.view x with out := if y = x then [] else (c.view x).out } := by
  simp only [view, purge]
  congr 1
  by_cases h : y = x
  · subst h; rw [if_pos rfl, filter_ne_self]; rfl
  · rw [if_neg h, filter_ne_other _ h]

theorem view_purgeConnect (c : Coord I A) (y x : Nat) :
    (c.purgeConnect y).view x = { c.view x with conn := if y = x then [] else (c.view x).conn } := by
  simp only [view, purgeConnect]
  congr 1
  by_cases h : y = x
  · subst h; rw [if_pos rfl, filter_ne_self]; rfl
  · rw [if_neg h, filter_ne_other _ h]

theorem view_drop (c : Coord I A) (y x : Nat) :
    ({ c with conns := c.conns.erase y, metas := c.metas.erase y } : Coord I A).view x =
      { c.view x with br := if y = x then none else (c.view x).br
                      info := if y = x then none else (c.view x).info } := by
  simp only [view, Map.get?_erase]

theorem view_complete (c : Coord I A) (y : Nat) (m : Option (XMeta A)) (ok : Bool) (x : Nat) :
    (c.complete cfg env y m ok).view x =
      { c.view x with log := (c.view x).log ++ if y = x then m.elim [] (fun m => report y m ok) else [] } := by
  unfold complete
  cases m with
  | none => simp
  | some m =>
    simp only [report, Option.elim_some]
    cases hk : m.kind with
    | none => simp
    | some k =>
      simp only []
      rw [view_call]
      simp

theorem view_collect (c : Coord I A) (y : Nat) (b : Bridge I A) (x : Nat) :
    (c.collect y b).1.view x =
      { c.view x with out := (c.view x).out ++
          if y = x then (c.view y).info.elim [] (fun m => piece m.peer b.transmit.2) else [] } := by
  unfold collect
  simp only [view]
  cases hm : c.metas.get? y with
  | none => simp [view]
  | some m =>
    simp only [Option.elim_some, piece]
    by_cases ht : b.transmit.2 = []
    · simp [ht, view]
    · simp only [ht, if_false, List.filter_append, List.map_append]
      congr 2
      by_cases h : y = x <;> simp [h]

theorem collect_snd (c : Coord I A) {y : Nat} {b : Bridge I A} {m : XMeta A} (h : c.metas.get? y = some m) :
    (c.collect y b).2 = b.transmit.1 := by
  unfold collect
  rw [h]
  simp only []
  split <;> rfl

theorem view_cancel (c : Coord I A) (y x : Nat) :
    (c.cancel y).view x =
      if y = x then { c.view x with br := none, info := none, out := [], down := [.abort] } else c.view x := by
  unfold cancel
  simp only []
  rw [view_teardown]
  have h1 : ∀ c1 : Coord I A, ({ c1 with teardowns := c1.teardowns.filter (fun e => e.2 ≠ y) } : Coord I A).view x =
      { c1.view x with down := if y = x then [] else (c1.view x).down } := by
    intro c1
    simp only [view]
    congr 1
    rw [List.filter_filter]
    by_cases h : y = x
    · subst h
      rw [if_pos rfl, show c1.teardowns.filter _ = [] from ?_]; rfl
      rw [List.filter_eq_nil_iff]
      intro e _
      by_cases h : e.2 = y <;> simp [h]
    · rw [if_neg h]
      congr 2
      funext e
      by_cases h1 : e.2 = x
      · simp [h1]; exact fun e => h e.symm
      · simp [h1]
  rw [h1, view_purge, view_drop]
  by_cases h : y = x <;> simp [h]

theorem view_reap (c : Coord I A) (y : Nat) (b : Bridge I A) (x : Nat) {m : XMeta A} (hm : c.metas.get? y = some m) :
    (c.reap cfg env y b).view x =
      if y = x then
        { c.view x with br := none, info := none
                        out := if b.isFailed then [] else (c.view x).out ++ piece m.peer b.transmit.2
                        down := (c.view x).down ++ [if b.isFailed then .abort else .close]
                        log := (c.view x).log ++ report y m (!b.isFailed) ++ giveUp m }
      else c.view x := by
  have h1 : (if b.isFailed = true then c.purge y else (c.collect y b).1).view x =
      { c.view x with out := if y = x then (if b.isFailed then [] else (c.view x).out ++ piece m.peer b.transmit.2)
                             else (c.view x).out } := by
    split
    · rw [view_purge]
    · rw [view_collect]
      simp only [show (c.view y).info = some m from hm, Option.elim_some]
      by_cases h : y = x <;> simp [h]
  have h2 : (if b.isFailed = true then c.purge y else (c.collect y b).1).metas = c.metas := by
    split
    · rfl
    · exact (collect_calls c y b).2.2.2.1
  unfold reap
  simp only []
  generalize (if b.isFailed = true then c.purge y else (c.collect y b).1) = c1 at h1 h2
  rw [view_teardown, h2, hm]
  have h3 := view_complete (cfg := cfg) (env := env)
    ({ c1 with conns := c1.conns.erase y, metas := c.metas.erase y } : Coord I A) y (some m) (!b.isFailed) x
  generalize ({ c1 with conns := c1.conns.erase y, metas := c.metas.erase y } : Coord I A).complete cfg env y (some m)
    (!b.isFailed) = c2 at h3
  rw [← h2, view_drop, h1] at h3
  simp only [Option.bind_some, giveUp]
  cases hmi : m.mint with
  | none => rw [h3]; by_cases h : y = x <;> simp [h]
  | some mint =>
    cases mint with
    | outbound sid => simp only []; rw [view_call, h3]; by_cases h : y = x <;> simp [h]
    | inbound p => simp only []; rw [h3]; by_cases h : y = x <;> simp [h]

theorem view_move {K : XMeta A → Stream I A → Prop} {e0 : Ep I A} {c c' : Coord I A} (hs : Shape cfg env e0 c)
    (hm : Move cfg env X T N L c c')
    (hK : ∀ y m mint s now, c.metas.get? y = some m → m.mint = some mint →
      (c.ep.step cfg env (mintOp mint now)).2 = .stream (some s) → K m s) (x : Nat) :
    VStep cfg env X T N L K x c.ring (c.view x) (c'.view x) := by
  cases hm with
  | book s => rw [view_same s]; exact .refl _
  | call y op hp =>
    rw [view_call]
    by_cases h : y = some x
    · rw [if_pos h]; exact .call _ _ hp
    · rw [if_neg h, List.append_nil]; exact .refl _
  | start op sid kind hst =>
    have e : ({ (c.callEp cfg env none op).1 with kinds := c.kinds.insert sid kind } : Coord I A).view x = c.view x := by
      have := view_call (cfg := cfg) (env := env) c none op x
      rw [if_neg (by simp), List.append_nil] at this
      exact this
    rw [e]; exact .refl _
  | @bridge y b b' hy hb =>
    rw [view_put]
    by_cases h : y = x
    · subst h; rw [if_pos rfl]; exact .bridge _ hy hb
    · rw [if_neg h]; exact .refl _
  | @commit y b s ev rest now hy hs he hl hsw hN =>
    have e : (c.commit cfg env T y b s ev rest now) =
        ((c.put y (Bridge.commitOne cfg env T c.cmp now c.ep b s ev rest).2).callEp cfg env (some y)
          (.streamEvent (.payload ev) now)).1 := by
      simp only [Coord.commit, callEp, Coord.put, Bridge.commitOne_ep]
    rw [e, view_call, view_put]
    by_cases h : y = x
    · subst h
      rw [if_pos rfl, if_pos rfl]
      exact .commit _ c.cmp c.ep now hy hs he hl (Bridge.commitOne_cases _ _ _ _ _ _ _) hsw hN
    · rw [if_neg (by simpa using h : ¬ some y = some x), if_neg h, List.append_nil]; exact .refl _
  | @shutdown y b hy ht =>
    unfold maybeShutdown
    split
    · exact .refl _
    · next hf =>
      split
      · exact .refl _
      · next m hm =>
        split
        · exact .refl _
        · next he =>
          rw [view_teardown]
          have e : ({ c with metas := c.metas.insert y { m with finEmitted := true } } : Coord I A).view x =
              { c.view x with info := if y = x then some { m with finEmitted := true } else (c.view x).info } := by
            simp only [view, Map.get?_insert]
          rw [e]
          by_cases h : y = x
          · subst h
            rw [if_pos rfl, if_pos rfl]
            exact .shutdown _ hy ht (by simpa using hf) hm (by simpa using he)
          · rw [if_neg h, if_neg h, List.append_nil]; exact .refl _
  | @collect y b hy =>
    obtain ⟨m, hm⟩ := hs.meta_of hy
    rw [view_put, view_collect, collect_snd c hm]
    by_cases h : y = x
    · subst h
      rw [if_pos rfl, if_pos rfl]
      simp only [show (c.view y).info = some m from hm, Option.elim_some]
      have hi : (c.view y).info = some m := hm
      have := VStep.collect (cfg := cfg) (env := env) (X := X) (T := T) (N := N) (L := L) (K := K) (x := y) (ring := c.ring) (c.view y) hy hi
      simp only [hi] at this
      exact this
    · rw [if_neg h, if_neg h, List.append_nil]; exact .refl _
  | @reap y b hy ht he =>
    obtain ⟨m, hm⟩ := hs.meta_of hy
    rw [view_reap c y b x hm]
    by_cases h : y = x
    · subst h
      rw [if_pos rfl]
      cases hf : b.isFailed with
      | true => simp only [if_true, Bool.not_true]; exact .reapFailed _ hy hm hf he
      | false =>
        simp only [Bool.false_eq_true, if_false, Bool.not_false]
        refine .reapClosed _ hy hm ?_ he
        rcases (Bridge.terminal_iff b).1 ht with h1 | h1
        · exact h1
        · rw [h1] at hf; cases hf
    · rw [if_neg h]; exact .refl _
  | dial now d hr =>
    rcases dialOne_cases (cfg := cfg) (env := env) (X := X) now c d with ⟨e, _⟩ | ⟨e, _⟩
    · rw [e]
      have : (({ c with kinds := c.kinds.erase d.1 } : Coord I A).callEp cfg env none (.dialFailed d.1)).1.view x = c.view x := by
        rw [view_call, if_neg (by simp), List.append_nil]; rfl
      first
        | rw [this]; exact .refl _
        | exact this ▸ .refl _
    · rw [e]
      by_cases h : c.nextX = x
      · subst h
        have := VStep.dial (cfg := cfg) (env := env) (X := X) (T := T) (N := N) (L := L) (K := K) (x := c.nextX) (ring := c.ring) (c.view c.nextX) d.2.1 d.1 d.2.2 c.cmp
          (c.kinds.get? d.1) (by simp [view])
        simp only [view, Map.get?_insert, if_true, List.filter_append, List.map_append] at this ⊢
        simpa using this
      · have : ∀ c' : Coord I A, c'.view x = c.view x → VStep cfg env X T N L K x c.ring (c.view x) (c'.view x) :=
          fun c' e => by rw [e]; exact .refl _
        refine this _ ?_
        simp only [view, Map.get?_insert, if_neg h, List.filter_append]
        have h1 : decide (x < c.nextX + 1) = decide (x < c.nextX) := by
          apply decide_eq_decide.2; omega
        simp [h]
        omega
  | @mintOk y b m mint s now hy ht hh hmm hmi hst hN =>
    have e : ((c.takeMint cfg env y m mint now).1.promoteX y s).view x =
        if y = x then { c.view x with br := some (b.promote s), info := some { m with mint := none }
                                      log := (c.view x).log ++ [mintOp mint now] } else c.view x := by
      unfold takeMint promoteX
      simp only [callEp, view, Map.get?_insert, Map.get?_modify, List.filter_append, List.map_append]
      by_cases h : y = x
      · subst h; simp [hy] <;> rfl
      · simp [h] <;> rfl
    rw [e]
    by_cases h : y = x
    · subst h; rw [if_pos rfl]; exact .mintOk _ c.ep now hy hmm ht hh hmi hst (hK _ _ _ _ _ hmm hmi hst) hN
    · rw [if_neg h]; exact .refl _
  | @mintOut y b m sid now hy ht hh hmm hmi =>
    have e : ((c.takeMint cfg env y m (.outbound sid) now).1.retireDial cfg env y).view x =
        if y = x then { c.view x with br := none, info := none, out := [], conn := [], down := (c.view x).down ++ [.abort]
                                      log := (c.view x).log ++ [.dialSucceeded sid now] ++ report y m false } else c.view x := by
      have h1 : (c.takeMint cfg env y m (.outbound sid) now).1.metas.get? y = some { m with mint := none } := by
        simp [takeMint, callEp, Map.get?_insert]
      have h2 : (c.takeMint cfg env y m (.outbound sid) now).1.view x =
          if y = x then { c.view x with info := some { m with mint := none }, log := (c.view x).log ++ [.dialSucceeded sid now] } else c.view x := by
        simp only [takeMint, callEp, view, Map.get?_insert, List.filter_append, List.map_append, mintOp]
        by_cases h : y = x
        · subst h; simp <;> rfl
        · simp [h] <;> rfl
      generalize (c.takeMint cfg env y m (.outbound sid) now).1 = c1 at h1 h2
      unfold retireDial
      simp only []
      rw [view_teardown, view_complete, view_drop, view_purgeConnect, view_purge, h2]
      rw [show ((c1.purge y).purgeConnect y).metas.get? y = some { m with mint := none } from h1]
      by_cases h : y = x <;> simp [h, report]
    rw [e]
    by_cases h : y = x
    · subst h; rw [if_pos rfl]; exact .mintOut _ now hy hmm ht hh hmi
    · rw [if_neg h]; exact .refl _
  | @mintIn y b m peer now hy ht hh hmm hmi =>
    have e : ((c.takeMint cfg env y m (.inbound peer) now).1.cancel y).view x =
        if y = x then { c.view x with br := none, info := none, out := [], down := [.abort]
                                      log := (c.view x).log ++ [.acceptStream peer now] } else c.view x := by
      have h2 : (c.takeMint cfg env y m (.inbound peer) now).1.view x =
          if y = x then { c.view x with info := some { m with mint := none }, log := (c.view x).log ++ [.acceptStream peer now] } else c.view x := by
        simp only [takeMint, callEp, view, Map.get?_insert, List.filter_append, List.map_append, mintOp]
        by_cases h : y = x
        · subst h; simp <;> rfl
        · simp [h] <;> rfl
      rw [view_cancel, h2]
      by_cases h : y = x <;> simp [h]
    rw [e]
    by_cases h : y = x
    · subst h; rw [if_pos rfl]; exact .mintIn _ now hy hmm ht hh hmi
    · rw [if_neg h]; exact .refl _
  | @cancel y hL hc hb =>
    rw [view_cancel]
    by_cases h : y = x
    · subst h
      rw [if_pos rfl]
      refine .cancel _ hL (by simp [view, hc]) ?_
      simp only [hasBytes, List.any_eq_true, decide_eq_true_eq] at hb
      obtain ⟨e, he, hx⟩ := hb
      intro hn
      simp only [view, List.map_eq_nil_iff, List.filter_eq_nil_iff] at hn
      exact hn e he (by simpa using hx)
    · rw [if_neg h]; exact .refl _

theorem take_view {busy : Nat → Bool} : ∀ {l rest : List (Teardown × Nat)} {t : Teardown} {y : Nat},
    takeTeardown busy l = some ((t, y), rest) → busy y = false ∧
      (l.filter (fun e => e.2 = y)).map Prod.fst = t :: (rest.filter (fun e => e.2 = y)).map Prod.fst ∧
      ∀ x, x ≠ y → l.filter (fun e => e.2 = x) = rest.filter (fun e => e.2 = x) := by
  intro l
  induction l with
  | nil => intro rest t y h; simp [takeTeardown] at h
  | cons a l ih =>
    intro rest t y h
    simp only [takeTeardown] at h
    split at h
    · next hb =>
      rw [Option.map_eq_some_iff] at h
      obtain ⟨⟨r1, r2⟩, h1, h2⟩ := h
      cases h2
      obtain ⟨g1, g2, g3⟩ := ih h1
      have hne : a.2 ≠ y := by intro e; rw [e, g1] at hb; cases hb
      refine ⟨g1, ?_, fun x hx => ?_⟩
      · simpa [List.filter_cons, hne] using g2
      · simp only [List.filter_cons, g3 x hx]
    · next hb =>
      cases h
      refine ⟨by simpa using hb, by simp, fun x hx => ?_⟩
      simp [List.filter_cons, Ne.symm hx]

theorem out_nil {c : Coord I A} {x : Nat} : (c.view x).out = [] ↔ c.hasBytes x = false := by
  simp only [view, hasBytes, List.map_eq_nil_iff, List.filter_eq_nil_iff, List.any_eq_false]

theorem emit_keep (c : Coord I A) (x : Nat) (op : XOp I A) (h1 : op ≠ .pollTransport) (h2 : op ≠ .pollAction) :
    emitOf x (c.step cfg env X T op).2 = [] := by
  cases op <;> first | rfl | exact absurd rfl h1 | exact absurd rfl h2

theorem view_first {e0 : Ep I A} {c c1 : Coord I A} {op : XOp I A} (hs : Shape cfg env e0 c)
    (hf : First cfg env X T c op c1) (x : Nat) :
    VFirst cfg env X T x c.ring (c.view x) op (emitOf x (c.step cfg env X T op).2) c1.ring (c1.view x) := by
  have keep : ∀ (c1 : Coord I A), c1.view x = c.view x → c1.ring = c.ring → emitOf x (c.step cfg env X T op).2 = [] →
      (∀ y bytes eof now, op = .data y bytes eof now → y ≠ x) →
      VFirst cfg env X T x c.ring (c.view x) op (emitOf x (c.step cfg env X T op).2) c1.ring (c1.view x) := by
    intro c1 h1 h2 h3 h4
    rw [h1, h2, h3]; exact .keep _ _ h4
  have hmod : ∀ (y : Nat) (f : Bridge I A → Bridge I A), ({ c with conns := c.conns.modify y f } : Coord I A).view x =
      if y = x then { c.view x with br := (c.view x).br.map f } else c.view x := by
    intro y f
    simp only [view, Map.get?_modify]
    by_cases h : y = x
    · subst h; simp <;> rfl
    · simp [h] <;> rfl
  cases hf with
  | plain s hd =>
    refine keep _ (view_same s x) s.ring ?_ (fun y bytes eof now h => absurd h (hd.1 y bytes eof now))
    by_cases hp : op = .pollTransport
    · subst hp
      simp [step, pollTransport, hd.2.1 rfl, emitOf]
    · exact emit_keep c x op hp hd.2.2
  | gossip src datagram now =>
    exact keep _ rfl rfl (emit_keep c x _ (by simp) (by simp)) (by simp)
  | feed y bytes eof now =>
    rw [hmod]
    by_cases h : y = x
    · subst h; rw [if_pos rfl]; exact .feed _ bytes eof now
    · rw [if_neg h]; exact .keep _ _ (by intro y' b e n h'; cases h'; exact h)
  | dialFailed y now =>
    rw [hmod]
    by_cases h : y = x
    · subst h; rw [if_pos rfl]; exact .dialFailed _ now
    · rw [if_neg h]; exact .keep _ _ (by simp)
  | transportError y now =>
    rw [hmod]
    by_cases h : y = x
    · subst h; rw [if_pos rfl]; exact .transportError _ now
    · rw [if_neg h]; exact .keep _ _ (by simp)
  | leave now farewell => exact .leave _ now farewell
  | encrypt ring =>
    by_cases he : c.ring = ring
    · have e : (c.setEncryption T ring) = c := by
        unfold Coord.setEncryption
        rw [if_pos he, ← he]
      rw [e]; exact .keep _ _ (by simp)
    · have hA := abortFailed_fold (T.order c.tick ((c.conns.filter (fun e => !e.2.isFailed)).map Prod.fst))
        ({ c with conns := c.conns.map (fun (e : Nat × Bridge I A) => (e.1, e.2.setEncryption ring)), tick := c.tick + 1 } : Coord I A)
      obtain ⟨_, a2, _, a4, a5, a6, _, _, a9, a10⟩ := hA
      have hp := T.order_perm c.tick ((c.conns.filter (fun e => !e.2.isFailed)).map Prod.fst)
      have hnd : (T.order c.tick ((c.conns.filter (fun e => !e.2.isFailed)).map Prod.fst)).Nodup := by
        refine hp.nodup_iff.2 ?_
        exact List.Nodup.sublist (List.Sublist.map _ List.filter_sublist) hs.nc
      have hmem : x ∈ T.order c.tick ((c.conns.filter (fun e => !e.2.isFailed)).map Prod.fst) ↔
          ((c.view x).br.any (fun b => !b.isFailed)) = true := by
        rw [hp.mem_iff]
        simp only [List.mem_map, List.mem_filter, view]
        constructor
        · rintro ⟨e, ⟨he, hb⟩, rfl⟩
          rw [Map.get?_of_mem hs.nc he]
          exact hb
        · intro h
          cases hb : c.conns.get? x with
          | none => rw [hb] at h; cases h
          | some b =>
            rw [hb] at h
            exact ⟨(x, b), ⟨Map.mem_of_get? hb, h⟩, rfl⟩
      have e : (c.setEncryption T ring).view x =
          { c.view x with br := (c.view x).br.map (fun b => b.setEncryption ring), out := []
                          conn := if (c.view x).br.any (fun b => !b.isFailed) then [] else (c.view x).conn
                          down := (c.view x).down ++ if (c.view x).br.any (fun b => !b.isFailed) then [.abort] else [] } := by
        unfold Coord.setEncryption
        rw [if_neg he]
        simp only []
        generalize T.order c.tick ((c.conns.filter (fun e => !e.2.isFailed)).map Prod.fst) = l at *
        generalize (l.foldl abortFailed ({ c with conns := c.conns.map (fun (e : Nat × Bridge I A) => (e.1, e.2.setEncryption ring)), tick := c.tick + 1 } : Coord I A)) = c2 at *
        have hdn : (c2.teardowns.filter (fun e => e.2 = x)).map Prod.fst =
            (c.view x).down ++ if x ∈ l then [Teardown.abort] else [] := by
          rw [a10, List.filter_append, List.map_append]
          congr 1
          clear hmem hp a9 a10
          induction l with
          | nil => rfl
          | cons z l ih =>
            have hn := List.nodup_cons.1 hnd
            simp only [List.map_cons, List.filter_cons]
            by_cases hz : z = x
            · subst hz
              have := ih hn.2
              rw [if_neg hn.1] at this
              simp [this]
            · have := ih hn.2
              simp only [hz, decide_false, Bool.false_eq_true, if_false, this, List.mem_cons, Ne.symm hz, false_or]
        have hcn : (c2.connects.filter (fun e => e.1 = x)).map Prod.snd = if x ∈ l then [] else (c.view x).conn := by
          rw [a9, List.filter_filter]
          by_cases hx : x ∈ l
          · rw [if_pos hx, List.map_eq_nil_iff, List.filter_eq_nil_iff]
            intro e _
            by_cases h : e.1 = x <;> simp [h, hx]
          · rw [if_neg hx]
            simp only [view]
            congr 2
            funext e
            by_cases h : e.1 = x <;> simp [h, hx]
        have hbr : c2.conns.get? x = (c.view x).br.map (fun b => b.setEncryption ring) := by
          rw [a4]; exact get?_map (fun b : Bridge I A => b.setEncryption ring) _ _
        have e1 : (if x ∈ l then [] else (c.view x).conn) =
            if (c.view x).br.any (fun b => !b.isFailed) then [] else (c.view x).conn := by
          by_cases h : x ∈ l
          · rw [if_pos h, if_pos (hmem.1 h)]
          · rw [if_neg h, if_neg (fun h' => h (hmem.2 h'))]
        have e2 : (if x ∈ l then [Teardown.abort] else []) =
            if (c.view x).br.any (fun b => !b.isFailed) then [.abort] else [] := by
          by_cases h : x ∈ l
          · rw [if_pos h, if_pos (hmem.1 h)]
          · rw [if_neg h, if_neg (fun h' => h (hmem.2 h'))]
        rw [e1] at hcn
        rw [e2] at hdn
        rw [← hcn, ← hdn, ← hbr]
        simp only [view, a2, a5, a6]
        rfl
      have e2 : (c.setEncryption T ring).ring = ring := by
        unfold Coord.setEncryption
        rw [if_neg he]
      rw [e, e2]
      exact .encrypt _ ring he
  | compress cmp =>
    have e : ({ c with cmp := cmp, conns := c.conns.map (fun (e : Nat × Bridge I A) => (e.1, e.2.setCompression cmp)) } : Coord I A).view x =
        { c.view x with br := (c.view x).br.map (fun b => b.setCompression cmp) } := by
      have := get?_map (fun b : Bridge I A => b.setCompression cmp) c.conns x
      simp only [view]
      rw [← this]
    rw [e]; exact .compress _ cmp
  | popOut e rest he =>
    obtain ⟨y, p, bs⟩ := e
    have hem : emitOf x (c.step cfg env X T .pollTransport).2 = if y = x then [.bytes bs] else [] := by
      simp [step, pollTransport, he, emitOf]
    rw [hem]
    by_cases h : y = x
    · subst h
      rw [if_pos rfl]
      have := VFirst.popOut (cfg := cfg) (env := env) (X := X) (T := T) (x := y) (ring := c.ring) (c.view y) (e := (p, bs))
        (rest := (rest.filter (fun e => e.1 = y)).map Prod.snd) (by simp [view, he])
      exact this
    · rw [if_neg h]
      have : ({ c with out := rest } : Coord I A).view x = c.view x :=
        view_ext rfl rfl rfl rfl (by simp [he, List.filter_cons, h]) rfl rfl
      rw [this]; exact .keep _ _ (by simp)
  | popAction =>
    simp only [step]
    unfold pollAction
    split
    · next y peer sid rest hc =>
      simp only [emitOf]
      by_cases h : y = x
      · subst h
        rw [if_pos rfl]
        exact .popConnect (c.view y) (peer := peer) (sid := sid) (rest := (rest.filter (fun e => e.1 = y)).map Prod.snd) (by simp [view, hc])
      · rw [if_neg h]
        have : ({ c with connects := rest } : Coord I A).view x = c.view x :=
          view_ext rfl rfl rfl rfl rfl (by simp [hc, List.filter_cons, h]) rfl
        rw [this]; exact .keep _ _ (by simp)
    · next hc =>
      split
      · exact .keep _ _ (by simp)
      · next t y rest ht =>
        obtain ⟨g1, g2, g3⟩ := take_view ht
        simp only [emitOf]
        by_cases h : y = x
        · subst h
          rw [if_pos rfl]
          exact .popDown (c.view y) (t := t) (rest := (rest.filter (fun (e : Teardown × Nat) => e.2 = y)).map Prod.fst) (by simp [view, hc])
            (out_nil.2 g1) g2
        · rw [if_neg h]
          have : ({ c with teardowns := rest } : Coord I A).view x = c.view x :=
            view_ext rfl rfl rfl rfl rfl rfl (g3 x (fun e => h e.symm)).symm
          rw [this]; exact .keep _ _ (by simp)
  | accept src now y hx =>
    unfold Coord.accept at hx ⊢
    simp only [] at hx ⊢
    split at hx
    · cases hx
    · split at hx
      · cases hx
      · next h1 h2 =>
        rw [if_neg h1, if_neg h2]
        by_cases h : c.nextX = x
        · subst h
          have := VFirst.accept (cfg := cfg) (env := env) (X := X) (T := T) (x := c.nextX) (ring := c.ring) (c.view c.nextX) src now c.cmp
            (by simp [view])
          simp only [view, Map.get?_insert, if_true] at this ⊢
          simpa [show emitOf c.nextX (c.step cfg env X T (.accept src now)).2 = [] from rfl] using this
        · have : ∀ c' : Coord I A, c'.view x = c.view x → c'.ring = c.ring →
              VFirst cfg env X T x c.ring (c.view x) (.accept src now) [] c'.ring (c'.view x) :=
            fun c' e1 e2 => by rw [e1, e2]; exact .keep _ _ (by simp)
          refine this _ ?_ rfl
          simp only [view, Map.get?_insert, if_neg h]
          simp
          omega

theorem complete_ring (c : Coord I A) (x : Nat) (m : Option (XMeta A)) (ok : Bool) :
    (c.complete cfg env x m ok).ring = c.ring := (complete_calls c x m ok).choose_spec.2.2

theorem move_ring {c c' : Coord I A} (hm : Move cfg env X T N L c c') : c'.ring = c.ring := by
  cases hm with
  | book s => exact s.ring
  | @shutdown x b =>
    unfold maybeShutdown
    split
    · rfl
    · split
      · rfl
      · split <;> rfl
  | @collect x b => exact (collect_calls c x b).2.1
  | @reap x b =>
    obtain ⟨_, _, _, h, _⟩ := reap_calls (cfg := cfg) (env := env) c x b
    exact h
  | dial now d hr =>
    rcases dialOne_cases (cfg := cfg) (env := env) (X := X) now c d with ⟨e, _⟩ | ⟨e, _⟩ <;> rw [e] <;> rfl
  | mintOut now => unfold retireDial; exact complete_ring _ _ _ _
  | _ => rfl

/-- What always holds of a view. -/
structure VOk (cfg : Cfg I A) (x : Nat) (ring : Option Keyring) (v : XV I A) : Prop where
  keys : v.br = none ↔ v.info = none
  br : ∀ b m, v.br = some b → v.info = some m → BShape cfg ring x m b
  born : v.born = false → v.br = none ∧ v.info = none ∧ v.out = [] ∧ v.conn = [] ∧ v.down = []

theorem vok {e0 : Ep I A} {c : Coord I A} (h : Shape cfg env e0 c) (x : Nat) : VOk cfg x c.ring (c.view x) where
  keys := h.keys x
  br := fun b m hb hm => h.br x b m hb hm
  born := fun hn => by
    have hn : ¬ x < c.nextX := by simpa [view] using hn
    have hb : c.conns.get? x = none := by
      cases hb : c.conns.get? x with
      | none => rfl
      | some b => exact absurd (h.lt x b hb) hn
    refine ⟨hb, (h.keys x).1 hb, ?_, ?_, ?_⟩
    · simp only [view, List.map_eq_nil_iff, List.filter_eq_nil_iff]
      intro e he hx
      exact hn (by have := h.outlt e he; simp at hx; omega)
    · simp only [view, List.map_eq_nil_iff, List.filter_eq_nil_iff]
      intro e he hx
      exact hn (by have := h.connlt e he; simp at hx; omega)
    · simp only [view, List.map_eq_nil_iff, List.filter_eq_nil_iff]
      intro e he hx
      exact hn (by have := h.downlt e he; simp at hx; omega)

/-- The view of an exchange that does not exist. -/
def blank : XV I A := ⟨false, none, none, [], [], [], []⟩

variable (cfg env X T) in
/-- A history as seen from exchange `x`: each call with what it handed to the driver for `x`. -/
def hist (c : Coord I A) (x : Nat) (ops : List (XOp I A)) : List (XOp I A × List (XEmit A)) :=
  ops.zip ((c.outs cfg env X T ops).map (emitOf x))

theorem outs_snoc (c : Coord I A) (ops : List (XOp I A)) (op : XOp I A) :
    c.outs cfg env X T (ops ++ [op]) =
      c.outs cfg env X T ops ++ [((c.run cfg env X T ops).step cfg env X T op).2] := by
  induction ops generalizing c with
  | nil => rfl
  | cons a ops ih => simp only [List.cons_append, outs, ih]; rfl

theorem outs_length (c : Coord I A) (ops : List (XOp I A)) : (c.outs cfg env X T ops).length = ops.length := by
  induction ops generalizing c with
  | nil => rfl
  | cons a ops ih => simp [outs, ih]

theorem hist_snoc (c : Coord I A) (x : Nat) (ops : List (XOp I A)) (op : XOp I A) :
    hist cfg env X T c x (ops ++ [op]) =
      hist cfg env X T c x ops ++ [(op, emitOf x ((c.run cfg env X T ops).step cfg env X T op).2)] := by
  unfold hist
  rw [outs_snoc, List.map_append, List.zip_append (by simp [outs_length])]
  rfl

end
end Coord
end Verif
