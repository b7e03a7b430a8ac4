import Verif.Proof.QuicClock5
/-
The timers of the QUIC node over every history of calls.
-/
namespace Verif.Quic
open Verif Map QBridge
variable {I A : Type} [DecidableEq I] [DecidableEq A] {Q : Quinn A}
variable {cfg : Cfg I A} {env : Env I A} {X : QCfg} {T : TEnv}
variable {L S P : Nat → Prop}

theorem Clock.pool {s : Quic I Q} (h : Clock L S P s) (caps : QCaps) (now : Nat) (src : A) (bytes : Bytes) :
    ((s.pool.datagram Q caps now src bytes).2 = none → (s.pool.datagram Q caps now src bytes).1.table.conns = s.pool.table.conns) ∧
    ∀ ch, (s.pool.datagram Q caps now src bytes).2 = some ch →
      (∀ c, c ≠ ch → (s.pool.datagram Q caps now src bytes).1.table.conns.get? c = s.pool.table.conns.get? c) ∧
      ((s.pool.datagram Q caps now src bytes).1.table.conns.get? ch = none → s.pool.table.conns.get? ch = none) := by
  clear h
  unfold Pool.datagram
  split
  · exact ⟨fun _ => rfl, by intro ch h; cases h⟩
  · next q ev _ =>
    unfold Pool.route
    split
    · rename_i ch v _
      have ho := on_only s.pool.table ch (fun e => e.via Q (fun c => (Q.event c v, ())))
      dsimp only
      refine ⟨fun hn => ?_, fun c hc => ?_⟩
      · unfold ConnTable.on at hn ⊢
        cases he : s.pool.table.conns.get? ch with
        | none => rfl
        | some e => rw [he] at hn; cases hn
      · have : c = ch := by
          revert hc
          cases (s.pool.table.on Q ch (fun e => e.via Q (fun c => (Q.event c v, ())))).2 with
          | none => intro h; cases h
          | some x => intro h; cases h; rfl
        subst this
        exact ⟨ho.1, ho.2.1⟩
    · split
      · exact ⟨fun _ => rfl, by intro ch h; cases h⟩
      · split
        · exact ⟨fun _ => rfl, by intro ch h; cases h⟩
        · split
          · next q2 c hx =>
            refine ⟨(by intro h; cases h), fun ch hc => ?_⟩
            have hcons : ∀ c', (s.pool.table.insertAccepted Q c src).1.conns.get? c' =
                (s.pool.table.conns.insert (Q.vacant s.pool.table.conns.keys) { conn := c, peer := src, inbound := true, pendingIndexed := true }).get? c' := by
              intro c'
              unfold ConnTable.insertAccepted
              dsimp only
              split <;> rfl
            cases hc
            refine ⟨fun c' hne => ?_, fun hn => ?_⟩
            · rw [show (s.pool.table.insertAccepted Q c src).2 = Q.vacant s.pool.table.conns.keys from rfl] at hne
              exact (hcons c').trans (by rw [get?_insert, if_neg (fun h => hne h.symm)])
            · have := (hcons (s.pool.table.insertAccepted Q c src).2).symm.trans hn
              rw [get?_insert, if_pos (show Q.vacant s.pool.table.conns.keys = (s.pool.table.insertAccepted Q c src).2 from rfl)] at this; cases this
          · exact ⟨fun _ => rfl, by intro ch h; cases h⟩
          · exact ⟨fun _ => rfl, by intro ch h; cases h⟩
    · exact ⟨fun _ => rfl, by intro ch h; cases h⟩

theorem Clock.udp (hQ : Q.Sound) {s : Quic I Q} (src : A) (bytes : Bytes) (now : Nat) (hi : Idle s) (hN : NodeInv cfg env X s) (h : Kept0 s) :
    Kept0 (s.udp cfg env X T src bytes now) := by
  unfold Quic.udp
  have h0 : Kept0 { s with lastNow := some now } := h.congr
  have r0 := hi.went (cfg := cfg) (env := env) (X := X) (T := T) (b := { s with lastNow := some now }) (.one (.book ..))
  have hi0 := r0.idle
  have hN0 := hN.moves hQ r0.moves
  generalize ({ s with lastNow := some now } : Quic I Q) = s0 at h0 hi0 hN0
  dsimp only
  split
  · have hp := Clock.pool h0 X.caps now src bytes
    have hm := NodeInv.moves (T := T) hQ hN0 (.one (.arrive now src bytes hi0.hot))
    split
    · next p hx =>
      rw [hx] at hp
      exact h0.congr rfl rfl (hp.1 rfl) rfl
    · next p ch hx =>
      rw [hx] at hp hm
      obtain ⟨hp1, hp2⟩ := hp.2 ch rfl
      have h1 : Clock (fun _ => False) (plus (fun _ => False) ch) (fun _ => False)
          { s0 with pool := p, stale := residue s0.stale ch, hot := some ch } :=
        Clock.grow (h0.weakS (fun _ => .inl)) hp1 hp2 (.inr rfl)
      have hN1 : NodeInv cfg env X ({ s0 with pool := p, stale := residue s0.stale ch, hot := some ch } : Quic I Q) :=
        hm.moves (T := T) hQ (.one (.book (stale := residue s0.stale ch) ..))
      have hh : ({ s0 with pool := p, stale := residue s0.stale ch, hot := some ch } : Quic I Q).hot = some ch := rfl
      have hd1 : ({ s0 with pool := p, stale := residue s0.stale ch, hot := some ch } : Quic I Q).doom = [] := hi0.calm.doom
      generalize ({ s0 with pool := p, stale := residue s0.stale ch, hot := some ch } : Quic I Q) = s1 at h1 hN1 hh hd1
      split
      · exact Clock.serviceConnection hQ now (.inr hh) hd1 hN1 h1
      · have w := index_went (cfg := cfg) (env := env) (X := X) (T := T) s1 ch
        exact Clock.serviceConnection hQ now (.inr (w.hot.trans hh)) (w.doom.trans hd1) (hN1.moves hQ w.moves)
          (h1.indexConn.weakS (fun _ => .inl))
  · exact h0.pushIngress _ _
  · exact h0

/-- A dial that gives an exchange has opened it on the connection it used. -/
theorem openDial_minted (s : Quic I Q) (d : QDial A) (ch now : Nat) :
    (s.openDial cfg env X d ch now).2.minted = [] ∨
    ∃ id b, (s.openDial cfg env X d ch now).2.minted = [id] ∧ (s.openDial cfg env X d ch now).1.bridges.get? id = some b ∧ b.ch = ch := by
  unfold Quic.openDial
  split
  · exact .inl rfl
  · split
    · exact .inl rfl
    · split
      · split
        · next s2 st _ => exact .inr ⟨st.id, _, rfl, get?_insert_self _ _ _, rfl⟩
        · exact .inl rfl
      · next t o _ hx =>
        have fin : ∀ (cl : Bool) (r : Quic I Q × Attempted),
            r = (if cl = true then ((s.putTable ch t).retire cfg env d.id, { res := .retired, touched := [ch] })
            else if now < d.deadline then ((s.putTable ch t).repark X d now, { res := .reparked, touched := [ch] })
            else ((s.putTable ch t).retire cfg env d.id, { res := .retired, touched := [ch] })) →
            r.2.minted = [] := by
          intro cl r hr
          split at hr
          · subst hr; rfl
          · split at hr <;> (subst hr; rfl)
        exact .inl (fin _ _ rfl)

theorem processDial_minted (s : Quic I Q) (d : QDial A) (now : Nat) :
    (s.processDial cfg env X d now).2.minted = [] ∨
    ∃ id b ch, (s.processDial cfg env X d now).2.minted = [id] ∧ (s.processDial cfg env X d now).2.touched = [ch] ∧
      (s.processDial cfg env X d now).1.bridges.get? id = some b ∧ b.ch = ch := by
  unfold Quic.processDial
  dsimp only
  split
  · exact .inl rfl
  · split
    · exact .inl rfl
    · next p ch _ =>
      rcases openDial_minted (cfg := cfg) (env := env) (X := X) { s.takeEntry d with pool := p, stale := residue (s.takeEntry d).stale ch } d ch now with h | ⟨id, b, h1, h2, h3⟩
      · exact .inl h
      · exact .inr ⟨id, b, ch, h1, openDial_touched _ _ _ _, h2, h3⟩

theorem Clock.serviceStarted {s : Quic I Q} (d : QDial A) (now : Nat) (h : Clock L S P s) :
    Clock L S P (s.serviceStarted cfg env X T d now) := by
  unfold Quic.serviceStarted
  dsimp only
  have h1 := Clock.processDial (cfg := cfg) (env := env) (X := X) h d now
  have hm := processDial_minted (cfg := cfg) (env := env) (X := X) s d now
  generalize s.processDial cfg env X d now = r at h1 hm
  have h2 : Clock L (plusL S r.2.touched) P (r.2.minted.foldl (fun s id => (s.pumpOne cfg env T now id).1) r.1) := by
    rcases hm with hm | ⟨id, b, ch, hm, ht, hb, hc⟩
    · rw [hm, plusL_nil] at h1
      rw [hm]; exact h1
    · rw [hm, plusL_one] at h1
      rw [hm]
      show Clock L _ P (r.1.pumpOne cfg env T now id).1
      have h3 : Clock (plus L id) (plusL S r.2.touched) (plus P id) r.1 := h1.mono (fun _ h => h) (fun _ h => h) (fun _ => .inl)
      refine (h3.pumpOne (cfg := cfg) (env := env) (T := T) now).weakS ?_
      rintro c (h | h)
      · exact h
      · right
        have : (r.1.pumpOne cfg env T now id).2 = some b.ch := by unfold Quic.pumpOne; rw [hb]
        rw [this, hc] at h
        cases h
        rw [ht]; exact List.mem_singleton.2 rfl
  have h3 := Clock.serviceFreed (cfg := cfg) (env := env) (X := X) (T := T) (h2.collect now) now (some Q_PUMPS) (some Q_DIALS)
  exact (h3.collect now).reconcileCatchup now

theorem Clock.launch {s : Quic I Q} (h : Clock L S P s) (id : Nat) (peer : A) (deadline : Nat) (kind : ExKind) :
    Clock L S P (s.launch id peer deadline kind) := by
  unfold Quic.launch
  exact Clock.noteUp (h.congr) _ _

theorem Clock.startPushPull {s : Quic I Q} (peer : A) (kind : PushPullKind) (now : Nat) (h : Clock L S P s) :
    Clock L S P (s.startPushPull cfg env X T peer kind now).1 := by
  unfold Quic.startPushPull
  dsimp only
  split
  · exact Clock.serviceStarted _ now (Clock.launch (h.congr) _ _ _ _)
  · exact h.congr

theorem Clock.startReliablePing {s : Quic I Q} (pid : I) (peer : A) (seq deadline now : Nat) (h : Clock L S P s) :
    Clock L S P (s.startReliablePing cfg env X T pid peer seq deadline now).1 := by
  unfold Quic.startReliablePing
  dsimp only
  split
  · exact Clock.serviceStarted _ now (Clock.launch (h.congr) _ _ _ _)
  · exact h.congr

theorem Clock.startUserMessage {s : Quic I Q} (peer : A) (payload : Bytes) (now : Nat) (h : Clock L S P s) :
    Clock L S P (s.startUserMessage cfg env X T peer payload now).1 := by
  unfold Quic.startUserMessage
  dsimp only
  split
  · exact h
  · split
    · exact h.congr
    · exact Clock.serviceStarted _ now (Clock.launch (h.congr) _ _ _ _)

theorem Clock.purges : ∀ (l : List (QDial A)) {s : Quic I Q}, Clock L S P s → Clock L S P (l.foldl (purgeDial cfg env) s) := by
  intro l
  induction l with
  | nil => intro s h; exact h
  | cons d l ih => intro s h; exact ih ((h.takeEntry d).retire d.id)

theorem Clock.leave {s : Quic I Q} (now : Nat) (farewell : Option Bytes) (h : Clock L S P s) :
    Clock L S P (s.leave cfg env T now farewell) := by
  unfold Quic.leave
  dsimp only
  split
  · exact h.congr
  · unfold Quic.purgeDials
    dsimp only
    have h0 : Clock L S P (({ s with lastNow := some now }.callEp cfg env none (.leave now farewell)).1.takeDials) := h.congr
    generalize ({ s with lastNow := some now }.callEp cfg env none (.leave now farewell)).1.takeDials = s0 at h0
    have h1 : Clock L S P ((s0.hand.foldl (purgeDial cfg env) s0).takeParked T) := (Clock.purges (cfg := cfg) (env := env) s0.hand h0).congr
    generalize (s0.hand.foldl (purgeDial cfg env) s0).takeParked T = s1 at h1
    exact (Clock.purges (cfg := cfg) (env := env) s1.hand h1).congr

theorem Clock.queueDatagram {s : Quic I Q} (peer : A) (bytes : Bytes) (now : Nat) (h : Clock L S P s) :
    Clock L S P (s.queueDatagram X peer bytes now).1 := by
  unfold Quic.queueDatagram
  have hg := getOrDial_grow s.pool.table s.pool.quinn now peer X.caps.maxConns
  split
  · next p er hx =>
    unfold Pool.dial at hx
    have he : (s.pool.table.getOrDial Q s.pool.quinn now peer X.caps.maxConns).2.2 = .error er := congrArg Prod.snd hx
    have hp : (s.pool.table.getOrDial Q s.pool.quinn now peer X.caps.maxConns).1 = p.table :=
      congrArg (fun x => x.1.table) hx
    exact h.congr rfl rfl (by show p.table.conns = _; rw [← hp]; exact hg.1 er he) rfl
  · next p ch hx =>
    unfold Pool.dial at hx
    have he : (s.pool.table.getOrDial Q s.pool.quinn now peer X.caps.maxConns).2.2 = .ok ch := congrArg Prod.snd hx
    have hp : p.table = (s.pool.table.getOrDial Q s.pool.quinn now peer X.caps.maxConns).1 :=
      (congrArg (fun x => x.1.table) hx).symm
    have h1 : Clock L (plus S ch) P { s with pool := p, stale := residue s.stale ch } := by
      refine Clock.grow (h.weakS (fun _ => .inl)) ?_ ?_ (.inr rfl)
      · show ∀ c, c ≠ ch → p.table.conns.get? c = _
        rw [hp]; exact (hg.2 ch he).1
      · show p.table.conns.get? ch = none → _
        rw [hp]; exact (hg.2 ch he).2
    dsimp only
    generalize ({ s with pool := p, stale := residue s.stale ch } : Quic I Q) = s1 at h1
    have ho := on_only s1.table ch (fun e => e.via Q (tryDatagram Q bytes))
    split
    · exact h1.collectConn now
    · next t st ht =>
      rw [ht] at ho
      exact Clock.collectConn (s := s1.putTable ch t) now (h1.table ho (.inr rfl))

theorem Clock.openUni {s : Quic I Q} (peer : A) (now : Nat) (h : Clock L S P s) : Clock L S P (s.openUni peer now).1 := by
  unfold Quic.openUni
  dsimp only
  split
  · exact h.congr
  · next ch _ =>
    have h1 : Clock L (plus S ch) P { s with lastNow := some now } := Clock.congr (h.weakS (fun _ => .inl))
    have ho := on_only ({ s with lastNow := some now } : Quic I Q).table ch (fun e => e.via Q (fun c =>
        (if (Q.openUni c).2 then Q.close (Q.openUni c).1 now else (Q.openUni c).1, (Q.openUni c).2)))
    split
    · exact h.congr
    · next t st ht =>
      rw [ht] at ho
      exact Clock.indexConn (s := ({ s with lastNow := some now } : Quic I Q).putTable ch t) (h1.table ho (.inr rfl))

theorem Clock.pollEventLoop : ∀ (fuel : Nat) {s : Quic I Q}, Clock L S P s → Clock L S P (s.pollEventLoop cfg env fuel).1 := by
  intro fuel
  induction fuel with
  | zero => intro s h; exact h
  | succ k ih =>
    intro s h
    simp only [Quic.pollEventLoop]
    split
    · exact h.congr
    · apply ih
      refine Clock.timer (Clock.noteUp ?_ _ _) _ _ (by intro _ h; cases h) (by intro _ h; cases h)
      exact h.congr
    · exact h.congr

theorem Clock.step (hQ : Q.Sound) {s : Quic I Q} (op : QOp I A) (hi : Idle s) (hN : NodeInv cfg env X s) (h : Kept0 s) :
    Kept0 (s.step cfg env X T op).1 := by
  cases op with
  | udp src bytes now => exact Clock.udp hQ src bytes now hi hN h
  | timeout now => exact Clock.timeout hQ now hi hN h
  | flush now => exact Clock.flush hQ now hi hN h
  | startPushPull peer kind now => exact Clock.startPushPull peer kind now h
  | startReliablePing pid peer seq d now => exact Clock.startReliablePing pid peer seq d now h
  | startUserMessage peer payload now => exact Clock.startUserMessage peer payload now h
  | leave now f => exact Clock.leave now f h
  | setEncryption r =>
    show Kept0 (s.setEncryption r)
    unfold setEncryption
    split
    · exact h
    · exact h.congr
  | setCompression c => exact h.congr
  | queueDatagram peer bytes now => exact Clock.queueDatagram peer bytes now h
  | openUni peer now => exact Clock.openUni peer now h
  | pollTransmit =>
    show Kept0 s.pollTransmit.1
    unfold pollTransmit
    split
    · exact h
    · exact h.congr
  | pollIngress =>
    show Kept0 s.pollIngress.1
    unfold pollIngress
    split
    · exact h
    · exact h.congr
  | pollEvent => exact Clock.pollEventLoop _ h
  | pollTimeout => exact h.refresh
  | direct d => exact h.congr

end Verif.Quic
