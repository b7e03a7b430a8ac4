import Verif.Proof.QuicClock2
/-
The timers of the QUIC node through the work on dials and connections.
-/
namespace Verif.Quic
open Verif Map QBridge
variable {I A : Type} [DecidableEq I] [DecidableEq A] {Q : Quinn A}
variable {cfg : Cfg I A} {env : Env I A} {X : QCfg} {T : TEnv}
variable {L S P : Nat → Prop}

theorem plusL_nil {S : Nat → Prop} : plusL S [] = S := by
  funext x; exact propext ⟨by rintro (h | h); exacts [h, by cases h], .inl⟩
theorem plusL_append {S : Nat → Prop} (a b : List Nat) : plusL (plusL S a) b = plusL S (a ++ b) := by
  funext x; apply propext; unfold plusL; rw [List.mem_append, or_assoc]
theorem plusL_one {S : Nat → Prop} (a : Nat) : plusL S [a] = plus S a := by
  funext x; apply propext; unfold plusL plus; rw [List.mem_singleton]

theorem Clock.absent {L' : Nat → Prop} {s : Quic I Q} (h : Clock L S P s) (hL : ∀ c, L c → L' c) : Clock L' S P s := h.weakL hL

/-- A connection in use, or a new one. -/
theorem Clock.grow {s s' : Quic I Q} {ch : Nat} (h : Clock L S P s)
    (h1 : ∀ c, c ≠ ch → s'.pool.table.conns.get? c = s.pool.table.conns.get? c)
    (h2 : s'.pool.table.conns.get? ch = none → s.pool.table.conns.get? ch = none) (hS : S ch)
    (hi : s'.index = s.index := by rfl) (hb : s'.bridges = s.bridges := by rfl) (hr : s'.ready = s.ready := by rfl) :
    Clock L S P s' := by
  refine ⟨by rw [hi]; exact h.wf, by rw [hi, hb]; exact h.lone, by rw [hi, hb]; exact h.bridge, ?_, ?_, by rw [hb, hr]; exact h.queued⟩
  · intro c hn
    rw [hi]
    apply h.bare
    by_cases hcc : c = ch
    · subst hcc; exact h2 hn
    · rw [← h1 c hcc]; exact hn
  · intro c e hs hn
    have hcc : c ≠ ch := by rintro rfl; exact hs hS
    rw [h1 c hcc] at hn
    rw [hi]; exact h.conn c e hs hn

theorem getOrDial_grow (t : ConnTable Q.C Q.V A) (q : Q.E) (now : Nat) (peer : A) (max : Option Nat) :
    (∀ er, (t.getOrDial Q q now peer max).2.2 = .error er → (t.getOrDial Q q now peer max).1.conns = t.conns) ∧
    (∀ ch, (t.getOrDial Q q now peer max).2.2 = .ok ch →
      (∀ c, c ≠ ch → (t.getOrDial Q q now peer max).1.conns.get? c = t.conns.get? c) ∧
      ((t.getOrDial Q q now peer max).1.conns.get? ch = none → t.conns.get? ch = none)) := by
  have key : ∀ (t0 : ConnTable Q.C Q.V A), t0.conns = t.conns →
      ∀ r : ConnTable Q.C Q.V A × Q.E × Except QDialErr Nat,
      r = (if max.any (fun m => m ≤ t0.conns.length) then (t0, q, .error .atGlobalCap)
        else
          match Q.connect q now peer with
          | (q, none) => (t0, q, .error .connect)
          | (q, some c) =>
            let ch := Q.vacant t0.conns.keys
            ({ t0 with conns := t0.conns.insert ch { conn := c, peer, inbound := false, pendingIndexed := false }
                       peers := t0.peers.insert peer ch }, q, .ok ch)) →
      (∀ er, r.2.2 = .error er → r.1.conns = t.conns) ∧
      (∀ ch, r.2.2 = .ok ch → (∀ c, c ≠ ch → r.1.conns.get? c = t.conns.get? c) ∧ (r.1.conns.get? ch = none → t.conns.get? ch = none)) := by
    intro t0 h0 r hr
    split at hr
    · subst hr; exact ⟨fun _ _ => h0, fun ch h => by cases h⟩
    · split at hr
      · subst hr; exact ⟨fun _ _ => h0, fun ch h => by cases h⟩
      · subst hr
        refine ⟨fun _ h => (by cases h), fun ch h => ?_⟩
        cases h
        refine ⟨fun c hc => ?_, fun hn => ?_⟩
        · show (t0.conns.insert _ _).get? c = _
          rw [get?_insert, if_neg (fun h => hc h.symm), h0]
        · change (t0.conns.insert _ _).get? _ = none at hn
          rw [get?_insert, if_pos rfl] at hn; cases hn
  generalize hr : t.getOrDial Q q now peer max = r
  unfold ConnTable.getOrDial at hr
  dsimp only at hr
  have same : r.1 = t → (∀ er, r.2.2 = .error er → r.1.conns = t.conns) ∧
      (∀ ch, r.2.2 = .ok ch → (∀ c, c ≠ ch → r.1.conns.get? c = t.conns.get? c) ∧ (r.1.conns.get? ch = none → t.conns.get? ch = none)) := by
    intro h
    rw [h]
    exact ⟨fun _ _ => rfl, fun ch _ => ⟨fun _ _ => rfl, fun h => h⟩⟩
  cases hp : t.peers.get? peer with
  | none => rw [hp] at hr; exact key t rfl _ hr.symm
  | some ch0 =>
    rw [hp] at hr
    dsimp only at hr
    cases hc : t.conns.get? ch0 with
    | none => rw [hc] at hr; exact same (by rw [← hr])
    | some e =>
      rw [hc] at hr
      dsimp only at hr
      by_cases hx : (!Q.closed e.conn || !e.established) = true
      · rw [if_pos hx] at hr; exact same (by rw [← hr])
      · rw [if_neg hx] at hr; exact key { t with peers := t.peers.erase peer } rfl _ hr.symm

theorem Clock.retire {s : Quic I Q} (h : Clock L S P s) (id : Nat) : Clock L S P (s.retire cfg env id) := by
  rw [retire_eq]; exact h.congr

theorem Clock.noteDown {s : Quic I Q} (h : Clock L S P s) (p : A) (k : ExKind) : Clock L S P (s.noteDown p k) := by
  unfold Quic.noteDown; split <;> exact h.congr
theorem Clock.noteUp {s : Quic I Q} (h : Clock L S P s) (p : A) (k : ExKind) : Clock L S P (s.noteUp p k) := by
  unfold Quic.noteUp; split <;> exact h.congr

theorem Clock.takeEntry {s : Quic I Q} (h : Clock L S P s) (d : QDial A) : Clock L S P (s.takeEntry d) := by
  unfold Quic.takeEntry
  dsimp only
  refine Clock.congr (s := Quic.setTimer _ (.dial d.id) none) (Clock.timer (Clock.noteDown ?_ _ _) _ _ (by intro _ h; cases h) (by intro _ h; cases h))
  split
  · exact h
  · exact h.congr

theorem Clock.repark {s : Quic I Q} (h : Clock L S P s) (d : QDial A) (now : Nat) : Clock L S P (s.repark X d now) := by
  unfold Quic.repark
  dsimp only
  refine Clock.noteUp (Clock.congr (s := Quic.setTimer s (.dial d.id) (some (dialWake X d.deadline now))) (Clock.timer h _ _ (by intro _ h; cases h) (by intro _ h; cases h))) _ _

theorem Clock.useConn {s : Quic I Q} (h : Clock L S P s) {ch : Nat} (hS : S ch) (f : Q.C → Q.C) : Clock L S P (s.useConn ch f) := by
  unfold Quic.useConn
  exact h.table (on_only _ _ _) hS

theorem Clock.mintDialled {s : Quic I Q} (h : Clock L S P s) (st : Stream I A) {ch : Nat} (sid : Nat) (hS : S ch) :
    Clock (plus L st.id) S P (s.mintDialled cfg X st ch sid) := by
  unfold Quic.mintDialled
  dsimp only
  exact Clock.table (s := s.openBridge cfg X st ch sid true) (h.openBridge st ch sid true) (on_only _ _ _) hS

theorem Clock.openDial {s : Quic I Q} (h : Clock L S P s) (d : QDial A) (ch now : Nat) :
    S ch → Clock (plusL L (s.openDial cfg env X d ch now).2.minted) S P (s.openDial cfg env X d ch now).1 := by
  intro hS
  unfold Quic.openDial
  split
  · rw [plusL_nil]; exact h.congr
  · split
    · rw [plusL_nil]; exact h.repark d now
    · have ho := on_only s.table ch (fun e => e.via Q Q.openBi)
      split
      · next t sid hx =>
        rw [hx] at ho
        have h1 : Clock L S P (s.putTable ch t) := h.table ho hS
        have hc : ∀ r, (s.putTable ch t).callEp cfg env (some d.id) (.dialSucceeded d.id now) = r → Clock L S P r.1 := by
          rintro r rfl; exact h1.congr
        split
        · next s2 st hr =>
          rw [plusL_one]
          exact Clock.mintDialled (hc _ hr) st sid hS
        · next s2 o _ hr =>
          rw [plusL_nil]
          exact ((hc _ hr).retire d.id).useConn hS _
      · next t o _ hx =>
        have ho' : Only ch s.table t := by
          rw [hx] at ho; exact ho
        have h1 : Clock L S P (s.putTable ch t) := h.table ho' hS
        have fin : ∀ (cl : Bool) (r : Quic I Q × Attempted),
            r = (if cl = true then ((s.putTable ch t).retire cfg env d.id, { res := .retired, touched := [ch] })
            else if now < d.deadline then ((s.putTable ch t).repark X d now, { res := .reparked, touched := [ch] })
            else ((s.putTable ch t).retire cfg env d.id, { res := .retired, touched := [ch] })) →
            Clock (plusL L r.2.minted) S P r.1 := by
          intro cl r hr
          split at hr
          · subst hr; rw [plusL_nil]; exact h1.retire _
          · split at hr
            · subst hr; rw [plusL_nil]; exact h1.repark _ _
            · subst hr; rw [plusL_nil]; exact h1.retire _
        exact fin _ _ rfl

theorem openDial_touched (s : Quic I Q) (d : QDial A) (ch now : Nat) : (s.openDial cfg env X d ch now).2.touched = [ch] := by
  unfold Quic.openDial
  split
  · rfl
  · split
    · rfl
    · split
      · split <;> rfl
      · next t o _ hx =>
        have fin : ∀ (cl : Bool) (r : Quic I Q × Attempted),
            r = (if cl = true then ((s.putTable ch t).retire cfg env d.id, { res := .retired, touched := [ch] })
            else if now < d.deadline then ((s.putTable ch t).repark X d now, { res := .reparked, touched := [ch] })
            else ((s.putTable ch t).retire cfg env d.id, { res := .retired, touched := [ch] })) →
            r.2.touched = [ch] := by
          intro cl r hr
          split at hr
          · subst hr; rfl
          · split at hr <;> (subst hr; rfl)
        exact fin _ _ rfl

theorem Clock.processDial {s : Quic I Q} (h : Clock L S P s) (d : QDial A) (now : Nat) :
    Clock (plusL L (s.processDial cfg env X d now).2.minted) (plusL S (s.processDial cfg env X d now).2.touched) P
      (s.processDial cfg env X d now).1 := by
  unfold Quic.processDial
  dsimp only
  have h0 := h.takeEntry d
  generalize s.takeEntry d = s0 at h0
  split
  · rw [plusL_nil, plusL_nil]; exact h0.retire _
  · have hg := getOrDial_grow s0.pool.table s0.pool.quinn now d.peer X.caps.maxConns
    split
    · next p er hx =>
      rw [plusL_nil, plusL_nil]
      unfold Pool.dial at hx
      have he : (s0.pool.table.getOrDial Q s0.pool.quinn now d.peer X.caps.maxConns).2.2 = .error er := congrArg Prod.snd hx
      have hp : (s0.pool.table.getOrDial Q s0.pool.quinn now d.peer X.caps.maxConns).1 = p.table :=
        congrArg (fun x => x.1.table) hx
      have h1 : Clock L S P { s0 with pool := p } := h0.congr rfl rfl (by show p.table.conns = _; rw [← hp]; exact hg.1 er he) rfl
      exact h1.retire _
    · next p ch hx =>
      unfold Pool.dial at hx
      rw [openDial_touched, plusL_one]
      have he : (s0.pool.table.getOrDial Q s0.pool.quinn now d.peer X.caps.maxConns).2.2 = .ok ch := congrArg Prod.snd hx
      have hp : p.table = (s0.pool.table.getOrDial Q s0.pool.quinn now d.peer X.caps.maxConns).1 :=
        (congrArg (fun x => x.1.table) hx).symm
      have h1 : Clock L (plus S ch) P { s0 with pool := p, stale := residue s0.stale ch } := by
        refine Clock.grow (h0.weakS (fun _ => .inl)) ?_ ?_ (.inr rfl)
        · show ∀ c, c ≠ ch → p.table.conns.get? c = _
          rw [hp]; exact (hg.2 ch he).1
        · show p.table.conns.get? ch = none → _
          rw [hp]; exact (hg.2 ch he).2
      exact h1.openDial d ch now (.inr rfl)

theorem Clock.processAll (now : Nat) : ∀ (l : List (QDial A)) {L S : Nat → Prop} {s : Quic I Q}, Clock L S P s →
    Clock (plusL L (Quic.processAll cfg env X now l s).2.minted) (plusL S (Quic.processAll cfg env X now l s).2.touched) P
      (Quic.processAll cfg env X now l s).1 := by
  intro l
  induction l with
  | nil => intro L S s h; unfold Quic.processAll; rw [plusL_nil, plusL_nil]; exact h
  | cons d l ih =>
    intro L S s h
    have := ih (h.processDial (cfg := cfg) (env := env) (X := X) d now)
    rw [plusL_append, plusL_append] at this
    exact this

theorem Clock.sieve {s : Quic I Q} (h : Clock L S P s) : Clock L S P (s.sieve cfg env) := by
  rw [sieve_eq]; exact h.congr

theorem Clock.serviceDials {s : Quic I Q} (h : Clock L S P s) (now : Nat) :
    Clock (plusL L (s.serviceDials cfg env X T now).2.minted) (plusL S (s.serviceDials cfg env X T now).2.touched) P
      (s.serviceDials cfg env X T now).1 := by
  unfold Quic.serviceDials
  dsimp only
  have h1 : Clock L S P (s.sieve cfg env).takeDials := Clock.congr (h.sieve (cfg := cfg) (env := env))
  generalize (s.sieve cfg env).takeDials = s1 at h1
  have h2 := h1.processAll (cfg := cfg) (env := env) (X := X) now s1.hand
  generalize Quic.processAll cfg env X now s1.hand s1 = r at h2
  have h3 : Clock (plusL L r.2.minted) (plusL S r.2.touched) P (r.1.takeParked T) := h2.congr
  generalize r.1.takeParked T = s3 at h3
  have h4 := h3.processAll (cfg := cfg) (env := env) (X := X) now s3.hand
  rw [plusL_append, plusL_append] at h4
  exact h4

theorem Clock.bucketLoop (peer : A) (now : Nat) : ∀ (fuel : Nat) {s : Quic I Q} (pops : Nat) (b : BucketEnd),
    Clock (plusL L b.out.minted) (plusL S b.out.touched) P s →
    Clock (plusL L (s.bucketLoop cfg env X peer now fuel pops b).2.out.minted)
      (plusL S (s.bucketLoop cfg env X peer now fuel pops b).2.out.touched) P (s.bucketLoop cfg env X peer now fuel pops b).1 := by
  intro fuel
  induction fuel with
  | zero => intro s pops b h; exact h
  | succ n ih =>
    intro s pops b h
    unfold Quic.bucketLoop
    split
    · next d rest hd =>
      have h1 : Clock (plusL L b.out.minted) (plusL S b.out.touched) P (s.popParked peer d rest) := h.congr
      have h2 := h1.processDial (cfg := cfg) (env := env) (X := X) d now
      rw [plusL_append, plusL_append] at h2
      split
      · split
        · exact h
        · dsimp only
          split
          · exact h2
          · exact ih _ _ h2
      · dsimp only
        split
        · exact h2
        · exact ih _ _ h2
    · exact h

theorem Clock.bucketDone {s : Quic I Q} (h : Clock L S P s) (peer : A) (now : Nat) (b : BucketEnd) :
    Clock L S P (s.bucketDone X peer now b) := by
  unfold Quic.bucketDone
  split
  · exact h
  · exact h.congr
  · split
    · exact h.congr
    · exact h

theorem Clock.servicePeer {s : Quic I Q} (h : Clock L S P s) (peer : A) (now : Nat) (budget : Option Nat) :
    Clock (plusL L (s.servicePeer cfg env X peer now budget).2.out.minted)
      (plusL S (s.servicePeer cfg env X peer now budget).2.out.touched) P (s.servicePeer cfg env X peer now budget).1 := by
  unfold Quic.servicePeer
  dsimp only
  apply Clock.bucketDone
  apply Clock.bucketLoop
  rw [plusL_nil, plusL_nil]; exact h

theorem mem_residue {l : List Nat} {x y : Nat} : y ∈ residue l x ↔ y ∈ l ∨ y = x := by
  unfold residue
  split
  · next h => exact ⟨.inl, by rintro (h' | rfl); exacts [h', h]⟩
  · simp

theorem mem_merge (m : List Nat) : ∀ {l : List Nat} {x : Nat}, x ∈ merge l m ↔ x ∈ l ∨ x ∈ m := by
  induction m with
  | nil => intro l x; simp [merge]
  | cons y m ih =>
    intro l x
    show x ∈ merge (residue l y) m ↔ _
    rw [ih, mem_residue, List.mem_cons, or_assoc]

theorem plusL_merge {S : Nat → Prop} (a b : List Nat) : plusL S (merge a b) = plusL (plusL S a) b := by
  funext x; apply propext; unfold plusL; rw [mem_merge, or_assoc]

theorem Clock.freedPeer (now : Nat) {r : Quic I Q × Pass} (h : Clock L (plusL S r.2.touched) P r.1) (peer : A) :
    Clock L (plusL S (freedPeer cfg env X T now r peer).2.touched) P (freedPeer cfg env X T now r peer).1 := by
  unfold Quic.freedPeer
  dsimp only
  rw [plusL_merge, plusL_merge]
  apply Clock.drainReady
  apply Clock.enqueueAll
  exact h.servicePeer peer now r.2.dials

theorem Clock.freedFold (now : Nat) : ∀ (l : List A) {r : Quic I Q × Pass}, Clock L (plusL S r.2.touched) P r.1 →
    Clock L (plusL S (l.foldl (Quic.freedPeer cfg env X T now) r).2.touched) P (l.foldl (Quic.freedPeer cfg env X T now) r).1 := by
  intro l
  induction l with
  | nil => intro r h; exact h
  | cons p l ih => intro r h; exact ih (h.freedPeer now p)

theorem Clock.freedLoop (now : Nat) : ∀ (n : Nat) {r : Quic I Q × Pass}, Clock L (plusL S r.2.touched) P r.1 →
    Clock L (plusL S (freedLoop cfg env X T now n r).2.touched) P (freedLoop cfg env X T now n r).1 := by
  intro n
  induction n with
  | zero =>
    intro r h
    unfold Quic.freedLoop
    split
    · exact h
    · exact h.congr
  | succ n ih =>
    intro r h
    unfold Quic.freedLoop
    split
    · exact h
    · exact ih (Clock.freedFold now _ (Clock.congr h))

theorem Clock.serviceFreed {s : Quic I Q} (h : Clock L S P s) (now : Nat) (pumps dials : Option Nat) :
    Clock L (plusL S (s.serviceFreed cfg env X T now pumps dials).2.touched) P (s.serviceFreed cfg env X T now pumps dials).1 := by
  unfold Quic.serviceFreed
  apply Clock.freedLoop
  rw [plusL_nil]; exact h

/-! ### Connections -/

theorem Clock.notice {s : Quic I Q} (h : Clock L S P s) (ch sid : Nat) {f : QBridge I A → QBridge I A} (hf : ∀ b, Steady b (f b)) :
    Clock L S P (s.notice ch sid f) := by
  unfold Quic.notice
  split
  · exact h
  · next id _ =>
    split
    · exact h
    · next b hb =>
      apply Clock.enqueue
      refine (h.weakL (L' := plus L id) (fun _ => .inl)).tweak (.inr rfl) (fun hq hp => ?_)
      rw [(hf b).1] at hq
      exact h.queued id b hp hb hq

theorem Clock.acceptOne {s : Quic I Q} (h : Clock L S P s) {ch : Nat} (hS : S ch) (sid : Nat) (peer : A) (now : Nat) :
    Clock L S P (s.acceptOne cfg env X ch sid peer now) := by
  unfold Quic.acceptOne
  split
  · exact h.useConn hS _
  · have hc : ∀ r, s.callEp cfg env none (.acceptStream peer now) = r → Clock L S P r.1 := by
      rintro r rfl; exact h.congr
    split
    · next s2 st hr =>
      apply Clock.enqueue
      exact (hc _ hr).openBridge st ch sid false
    · next s2 o _ hr => exact (hc _ hr).useConn hS _

theorem Clock.acceptLoop {ch : Nat} (hS : S ch) (now : Nat) : ∀ (fuel : Nat) {s : Quic I Q}, Clock L S P s →
    Clock L S P (s.acceptLoop cfg env X ch now fuel) := by
  intro fuel
  induction fuel with
  | zero => intro s h; exact h
  | succ n ih =>
    intro s h
    unfold Quic.acceptLoop
    have ho := on_only s.table ch (fun e => ((e.via Q Q.acceptBi).1, (e.via Q Q.acceptBi).2, e.peer))
    split
    · exact h
    · next t _ hx => rw [hx] at ho; exact h.table ho hS
    · next t sid peer hx =>
      rw [hx] at ho
      exact ih (Clock.acceptOne (h.table ho hS) hS sid peer now)

theorem Clock.onEvent {s : Quic I Q} (h : Clock L S P s) {ch : Nat} (hS : S ch) (now : Nat) (ev : ConnEv) :
    Clock L S P (s.onEvent cfg env X ch now ev) := by
  cases ev with
  | opened => exact Clock.acceptLoop hS now _ h
  | readable sid => exact h.notice ch sid (f := id) (fun b => Steady.refl b)
  | writable sid => exact h.notice ch sid (f := id) (fun b => Steady.refl b)
  | finished sid => exact h.notice ch sid sendFin_steady
  | stopped sid => exact (h.useConn hS _).notice ch sid (fun b => drop_steady b _)
  | _ => exact h

theorem Clock.pollLoop {ch : Nat} (hS : S ch) (now : Nat) : ∀ (fuel : Nat) {s : Quic I Q} (a b : Bool), Clock L S P s →
    Clock L S P (s.pollLoop cfg env X ch now fuel a b).1 := by
  intro fuel
  induction fuel with
  | zero => intro s a b h; exact h
  | succ n ih =>
    intro s a b h
    unfold Quic.pollLoop
    have ho := on_only s.table ch (fun e => e.via Q Q.poll)
    split
    · exact h
    · next t hx => rw [hx] at ho; exact h.table ho hS
    · next t ev hx =>
      rw [hx] at ho
      exact ih _ _ (Clock.onEvent (h.table ho hS) hS now ev)

theorem Clock.feed {s : Quic I Q} (h : Clock L S P s) {ch : Nat} (hS : S ch) (now : Nat) : Clock L S P (s.feed ch now) := by
  unfold Quic.feed
  exact h.table (on_only _ _ _) hS

theorem Clock.endpointLoop {ch : Nat} (hS : S ch) : ∀ (fuel : Nat) {s : Quic I Q}, Clock L S P s →
    Clock L S P (s.endpointLoop ch fuel) := by
  intro fuel
  induction fuel with
  | zero => intro s h; exact h
  | succ n ih =>
    intro s h
    unfold Quic.endpointLoop
    have ho := on_only s.table ch (fun e => e.via Q Q.pollEndpoint)
    split
    · exact h
    · next t hx => rw [hx] at ho; exact h.table ho hS
    · next t hx => rw [hx] at ho; exact ih (h.table ho hS)
    · next t w hx =>
      rw [hx] at ho
      dsimp only
      apply ih
      refine Clock.table (t := match (Q.endpointEvent s.pool.quinn ch w).2 with
        | none => t
        | some v => (t.on Q ch (fun e => ({ e with pendingEvents := e.pendingEvents ++ [v] }, ()))).1) h ?_ hS
      split
      · exact ho
      · exact ho.trans (on_only _ _ _)

theorem Clock.pushIngress {s : Quic I Q} (h : Clock L S P s) (src : A) (bytes : Bytes) : Clock L S P (s.pushIngress src bytes) := by
  unfold Quic.pushIngress
  split <;> exact h.congr

theorem Clock.datagramLoop {ch : Nat} (hS : S ch) : ∀ (fuel : Nat) {s : Quic I Q}, Clock L S P s →
    Clock L S P (s.datagramLoop ch fuel) := by
  intro fuel
  induction fuel with
  | zero => intro s h; exact h
  | succ n ih =>
    intro s h
    unfold Quic.datagramLoop
    have ho := on_only s.table ch (fun e => ((e.via Q Q.recvDgram).1, (e.via Q Q.recvDgram).2, e.peer))
    split
    · exact h
    · next t _ hx => rw [hx] at ho; exact h.table ho hS
    · next t bytes peer hx =>
      rw [hx] at ho
      exact ih (Clock.pushIngress (h.table ho hS) _ _)

end Verif.Quic
