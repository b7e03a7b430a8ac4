import Verif.Proof.Sends
/-
Relayed pings: one answer for each that ends, and none is left past its deadline.
-/
namespace Verif.Ep
open Verif Core Spec
variable {I A : Type} [DecidableEq I] [DecidableEq A]
variable {cfg : Cfg I A} {env : Env I A}

theorem micro_claims {op : Op I A} {late : Bool} {a b : Ep I A} (hm : Micro cfg env op late a b) (hg : Good cfg a.core)
    (h : ClaimsOk env a.core.bcast) : ClaimsOk env b.core.bcast :=
  (micro_acts hm).inductGood (Q := fun c => ClaimsOk env c.bcast) hg h (fun _ x _ hc hq => (qs_act hc x).claims hq)

omit [DecidableEq I] [DecidableEq A] in
theorem gossipMsg_quiet {m : Message I A} (h : GossipMsg m) : isAnswer m = false := by
  rcases h with ⟨id, h | h | h⟩ | h
  · obtain ⟨a, h, _⟩ := h; dsimp only at h; rw [h]; rfl
  · obtain ⟨a, h, _⟩ := h; dsimp only at h; rw [h]; rfl
  · obtain ⟨a, h, _⟩ := h; dsimp only at h; rw [h]; rfl
  · obtain ⟨a, h⟩ := h; rw [h]; rfl

omit [DecidableEq I] [DecidableEq A] in
theorem answersIn_datagram {dst : A} {ms : List (Message I A)} {t : Transmit I A} (hd : datagram dst ms = some t)
    (h : ∀ m ∈ ms, isAnswer m = false) : answersIn t = [] := by
  have hf : ms.filter isAnswer = [] := by
    rw [List.filter_eq_nil_iff]; intro m hm; rw [h m hm]; simp
  match ms, hd with
  | [m], hd => cases hd; simp only [answersIn]; rw [hf]; rfl
  | m :: m' :: l, hd => cases hd; simp only [answersIn]; rw [hf]; rfl

omit [DecidableEq I] in
theorem perm_erase {m : Map Nat (Forward A)} (hn : m.NodupKeys) {s : Nat} {f : Forward A} (h : m.get? s = some f) :
    m.Perm ((s, f) :: m.erase s) := by
  induction m with
  | nil => cases h
  | cons x m ih =>
    obtain ⟨k, v⟩ := x
    have hn' : k ∉ m.map Prod.fst ∧ Map.NodupKeys m := by
      unfold Map.NodupKeys Map.keys at hn
      rw [List.map_cons, List.nodup_cons] at hn
      exact hn
    by_cases hk : k = s
    · subst hk
      have hv : v = f := by
        have := Map.get?_of_mem (m := (k, v) :: m) hn (List.mem_cons_self ..)
        rw [this] at h; cases h; rfl
      subst hv
      have : Map.erase ((k, v) :: m) k = m := by
        unfold Map.erase
        rw [List.filter_cons]
        simp only [ne_eq, not_true_eq_false, decide_false, Bool.false_eq_true, if_false]
        rw [List.filter_eq_self]
        intro y hy
        have : y.1 ≠ k := fun he => hn'.1 (List.mem_map.2 ⟨y, hy, he⟩)
        simpa using this
      rw [this]
    · have hg : Map.get? m s = some f := by
        have h1 := Map.mem_of_get? h
        rcases List.mem_cons.1 h1 with h1 | h1
        · cases h1; exact absurd rfl hk
        · exact Map.get?_of_mem hn'.2 h1
      have he : Map.erase ((k, v) :: m) s = (k, v) :: Map.erase m s := by
        unfold Map.erase
        rw [List.filter_cons]
        simp [hk]
      rw [he]
      exact ((ih hn'.2 hg).cons (k, v)).trans (List.Perm.swap ..)

/-- The relayed pings a call ends, and the answers it sends, pair off. -/
theorem step_relays {e : Ep I A} (h : Reachable cfg env e) (op : Op I A) (hleave : ∀ now f, op ≠ .leave now f)
    (hpoll : op ≠ .pollTransmit) (hping : ∀ src p now, op ≠ .packet src (.ping p) now)
    (hind : ∀ src p now, op ≠ .packet src (.indirectPing p) now) :
    ∃ l ended, (e.step cfg env op).1.net.transmits = e.net.transmits ++ l ∧
      (relays e).Perm (ended ++ relays (e.step cfg env op).1) ∧
      l.flatMap answersIn = ended.map (fun x => answerTo op x.2) ∧
      ∀ x ∈ ended, RelayEnds x.1 x.2 op := by
  refine (step_micro_induct (Q := fun b => ClaimsOk env b.core.bcast ∧ ∃ l ended,
      b.net.transmits = e.net.transmits ++ l ∧ (relays e).Perm (ended ++ relays b) ∧
      l.flatMap answersIn = ended.map (fun x => answerTo op x.2) ∧ ∀ x ∈ ended, RelayEnds x.1 x.2 op)
    h op ⟨reachable_claims h, [], [], by simp, by simp, rfl, by simp⟩ ?_).2
  rintro late b c hg hn ⟨hc, l, ended, h1, h2, h3, h4⟩ hm
  refine ⟨micro_claims hm hg hc, ?_⟩
  have quiet : ∀ l', c.net.transmits = b.net.transmits ++ l' → (∀ t ∈ l', answersIn t = []) → relays c = relays b →
      ∃ l ended, c.net.transmits = e.net.transmits ++ l ∧ (relays e).Perm (ended ++ relays c) ∧
      l.flatMap answersIn = ended.map (fun x => answerTo op x.2) ∧ ∀ x ∈ ended, RelayEnds x.1 x.2 op := by
    intro l' hl' hq hr
    refine ⟨l ++ l', ended, by rw [hl', h1, List.append_assoc], by rw [hr]; exact h2, ?_, h4⟩
    rw [List.flatMap_append, h3, List.flatMap_eq_nil_iff.2 hq, List.append_nil]
  have none_ : c.net.transmits = b.net.transmits → relays c = relays b →
      ∃ l ended, c.net.transmits = e.net.transmits ++ l ∧ (relays e).Perm (ended ++ relays c) ∧
      l.flatMap answersIn = ended.map (fun x => answerTo op x.2) ∧ ∀ x ∈ ended, RelayEnds x.1 x.2 op :=
    fun h hr => quiet [] (by rw [h, List.append_nil]) (by simp) hr
  have ended_ : ∀ s f, b.net.forwards.get? s = some f → RelayEnds s f op →
      c.net.transmits = b.net.transmits ++ [.packet (answerTo op f).1 (answerTo op f).2] →
      relays c = b.net.forwards.erase s →
      ∃ l ended, c.net.transmits = e.net.transmits ++ l ∧ (relays e).Perm (ended ++ relays c) ∧
      l.flatMap answersIn = ended.map (fun x => answerTo op x.2) ∧ ∀ x ∈ ended, RelayEnds x.1 x.2 op := by
    intro s f hf he ht hr
    refine ⟨l ++ [.packet (answerTo op f).1 (answerTo op f).2], ended ++ [(s, f)],
      by rw [ht, h1, List.append_assoc], ?_, ?_, ?_⟩
    · rw [hr, List.append_assoc]
      refine h2.trans ((perm_erase hn.fn hf).append_left ended)
    · rw [List.flatMap_append, h3, List.map_append]
      congr 1
      cases he <;> rfl
    · intro x hx
      rcases List.mem_append.1 hx with hx | hx
      · exact h4 x hx
      · rw [List.mem_singleton.1 hx]; exact he
  cases hm with
  | core x hx => exact none_ rfl rfl
  | aux _ hc' hn' hf hu => exact none_ hn'.transmits hn'.forwards
  | send t ht =>
    refine quiet [t] rfl ?_ rfl
    intro t' ht'
    rw [List.mem_singleton.1 ht']
    cases ht with
    | ack src p now payload h => exact absurd rfl (hping _ _ _)
    | refuse src p now => exact absurd rfl (hind _ _ _)
    | relay src p now msg h hm => exact absurd rfl (hind _ _ _)
    | probe _ now ho _ dst msg h hm =>
      rcases hm with ⟨p, rfl⟩ | ⟨p, rfl⟩ <;> rfl
    | probeBoth _ now ho _ dst p s h => rfl
    | ping node now _ p b hb h => rfl
    | user dst data _ ho _ h => rfl
    | users dst many _ _ h =>
      simp only [answersIn]
      rw [List.filter_eq_nil_iff.2, List.map_nil]
      intro m hm
      obtain ⟨d, _, rfl⟩ := List.mem_map.1 hm
      simp [isAnswer]
  | dial id peer d hr hd => exact none_ rfl rfl
  | start seq p a hs hr hw hlt => exact none_ rfl rfl
  | alloc seq hs => exact none_ rfl rfl
  | dispatched seq b hlt => exact none_ rfl rfl
  | fail seq p now hp hw hr hlt =>
    refine none_ ?_ ?_
    · rw [terminate_net b seq now p hp, discard_transmits]
    · unfold relays; rw [terminate_net b seq now p hp]; unfold discardProbe; dsimp only; split <;> rfl
  | done seq p direct payload now hp hd hw hr hlt =>
    refine none_ ?_ ?_
    · rw [complete_net b seq now direct payload p hp hd]
    · unfold relays; rw [complete_net b seq now direct payload p hp hd]
  | nack src seq now ho =>
    refine none_ (handleNack_transmits _ _ _ _) ?_
    unfold relays handleNack; (repeat' split) <;> rfl
  | fan seq p now peers st ho hp hk hph hd hf hl hnd ha hfit hlt =>
    refine quiet (peers.map (fun x => .packet x (relayRequest cfg seq p))) rfl ?_ rfl
    intro t ht
    obtain ⟨x, _, rfl⟩ := List.mem_map.1 ht
    rfl
  | fwd seq src p now ho hs hsrc hl hnew => exact absurd ho (hind _ _ _)
  | fwdAnswer seq f hf payload now ho hd =>
    subst ho
    exact ended_ seq f hf (.answered payload now hd) rfl rfl
  | fwdExpire seq f hf now ho hd =>
    subst ho
    exact ended_ seq f hf (.expired now hd) rfl rfl
  | intent i hr => exact none_ rfl rfl
  | intentDial i hr hw => exact none_ rfl rfl
  | skipId => exact none_ rfl rfl
  | unintent id hw => exact none_ rfl rfl
  | retire seq => exact none_ rfl rfl
  | gossip targets now ho hr =>
    obtain ⟨ts, h5, _, h6⟩ := sendAll_net (b.drainGossip cfg env).1 targets (b.drainGossip cfg env).2
    refine quiet ts (by rw [h5, (drainGossip_net b).1]) ?_ (by unfold relays; rw [h5, (drainGossip_net b).1])
    intro t ht
    obtain ⟨dst, hd⟩ := h6 t ht
    exact answersIn_datagram hd (fun m hm => gossipMsg_quiet (drainGossip_msgs hc m hm))
  | leave now f ho hr => exact absurd ho (hleave _ _)
  | poll ho => exact absurd ho hpoll

/-! ### Expiry -/

theorem expireForward_get (e : Ep I A) (s s' : Nat) :
    (expireForward e s).net.forwards.get? s' = if s = s' then none else e.net.forwards.get? s' := by
  unfold expireForward
  split
  · rename_i hn
    split
    · rename_i h; subst h; exact hn
    · rfl
  · show (e.net.forwards.erase s).get? s' = _
    rw [Map.get?_erase]

theorem fireExpiredForwards_get (e : Ep I A) (now s : Nat) {f : Forward A}
    (h : (e.fireExpiredForwards env now).net.forwards.get? s = some f) :
    e.net.forwards.get? s = some f ∧ now < f.deadline := by
  rw [fireExpiredForwards_eq] at h
  have key : ∀ (l : List Nat) (e : Ep I A),
      (l.foldl expireForward e).net.forwards.get? s = if s ∈ l then none else e.net.forwards.get? s := by
    intro l
    induction l with
    | nil => intro e; rfl
    | cons x l ih =>
      intro e
      rw [List.foldl_cons, ih, expireForward_get]
      by_cases hx : x = s
      · subst hx; simp
      · simp [hx, Ne.symm hx]
  rw [key] at h
  split at h
  · cases h
  · rename_i hnot
    have hg : e.net.forwards.get? s = some f := h
    refine ⟨hg, ?_⟩
    by_contra hle
    apply hnot
    rw [(env.order_perm _ _).mem_iff]
    refine List.mem_map.2 ⟨(s, f), List.mem_filter.2 ⟨Map.mem_of_get? hg, ?_⟩, rfl⟩
    simpa using hle

theorem fireExpiredIntents_forwards (e : Ep I A) (now : Nat) :
    (e.fireExpiredIntents env now).net.forwards = e.net.forwards := by
  unfold fireExpiredIntents
  dsimp only
  have hd : ∀ (n : Net I A) id, (dropIntent n id).forwards = n.forwards := by
    intro n id
    unfold dropIntent
    split
    · rfl
    · dsimp only; split <;> rfl
  have : ∀ (l : List Nat) (e : Ep I A),
      (l.foldl (fun e id => ({ e with net := dropIntent e.net id } : Ep I A)) e).net.forwards = e.net.forwards := by
    intro l
    induction l with
    | nil => intro e; rfl
    | cons x l ih => intro e; rw [List.foldl_cons, ih]; exact hd _ _
  rw [this]; rfl

/-- No relayed ping is left past its deadline once the timers were serviced. -/
theorem timeout_relays {e : Ep I A} (h : Reachable cfg env e) (hl : e.core.lifecycle = .running) (now : Nat)
    {seq : Nat} {f : Forward A} (hf : relaying (e.step cfg env (.timeout now)).1 seq = some f) : now < f.deadline := by
  have key : ∀ s f, (e.step cfg env (.timeout now)).1.net.forwards.get? s = some f → now < f.deadline := by
    refine step_micro_induct2 (Q := fun _ => True)
      (R := fun b => ∀ s f, b.net.forwards.get? s = some f → now < f.deadline)
      h (.timeout now) trivial (fun _ _ _ _ _ _ => trivial) ?_ ?_
    · rintro a rfl _ _ _ s f hf
      simp only [stepEnds, if_pos hl] at hf
      unfold timeoutEnds at hf
      rw [fireExpiredIntents_forwards] at hf
      exact (fireExpiredForwards_get _ _ _ hf).2
    · intro a b _ ha hr hm s f hf
      have same : b.net.forwards = a.net.forwards → now < f.deadline := fun h => hr s f (by rw [← h]; exact hf)
      have eras : ∀ s', b.net.forwards = a.net.forwards.erase s' → now < f.deadline := by
        intro s' h
        rw [h, Map.get?_erase] at hf
        split at hf
        · cases hf
        · exact hr s f hf
      cases hm with
      | core x hx => exact same rfl
      | aux _ hc hn hf hu => exact same hn.forwards
      | send t ht => exact same rfl
      | dial id peer d hr hd => exact same rfl
      | start seq p a hs hr hw hlt => exact same rfl
      | alloc seq hs => exact same rfl
      | dispatched seq b hlt => exact same rfl
      | fail seq p now hp hw hr hlt => cases hlt
      | done seq p direct payload now hp hd hw hr hlt => cases hlt
      | nack src seq now ho => cases ho
      | fan seq p now peers st ho hp hk hph hd hf hl hnd ha hfit hlt => cases hlt
      | fwd seq src p now ho hs hsrc hl hnew => cases ho
      | fwdAnswer seq f hf payload now ho hd => cases ho
      | fwdExpire seq f hf now ho hd => exact eras seq rfl
      | intent i hr => exact same rfl
      | intentDial i hr hw => exact same rfl
      | skipId => exact same rfl
      | unintent id hw => exact same rfl
      | retire seq => exact same rfl
      | gossip targets now ho hr =>
        obtain ⟨ts, h5, _, h6⟩ := sendAll_net (a.drainGossip cfg env).1 targets (a.drainGossip cfg env).2
        exact same (by rw [h5, (drainGossip_net a).1])
      | leave now f ho hr => cases ho
      | poll ho => cases ho
  exact key seq f hf

/-! ### Requests -/

theorem indirect_step {e : Ep I A} (hr : e.core.lifecycle = .running) (src : A) (p : Ping I A) (now : Nat) :
    (e.step cfg env (.packet src (.indirectPing p) now)).1 = e.handleIndirectPing cfg env src p now := by
  show e.handlePacket cfg env src (.indirectPing p) now = _
  unfold handlePacket
  rw [if_neg (by simp [hr])]

theorem packet_stopped {e : Ep I A} (hr : e.core.lifecycle ≠ .running) (src : A) (m : Message I A) (now : Nat) :
    (e.step cfg env (.packet src m now)).1 = e := by
  show e.handlePacket cfg env src m now = _
  unfold handlePacket
  rw [if_pos hr]

theorem ping_packet_step {e : Ep I A} (hr : e.core.lifecycle = .running) (src : A) (p : Ping I A) (now : Nat) :
    (e.step cfg env (.packet src (.ping p) now)).1 = e.handlePing cfg src p := by
  show e.handlePacket cfg env src (.ping p) now = _
  unfold handlePacket
  rw [if_neg (by simp [hr])]

theorem handlePing_forwards (e : Ep I A) (src : A) (p : Ping I A) :
    (e.handlePing cfg src p).net.forwards = e.net.forwards := by
  unfold handlePing
  (repeat' split) <;> rfl

theorem handleIndirectPing_kept (e : Ep I A) (src : A) (p : Ping I A) (now : Nat) {seq : Nat} {f : Forward A}
    (hf : e.net.forwards.get? seq = some f) :
    (e.handleIndirectPing cfg env src p now).net.forwards.get? seq = some f := by
  unfold handleIndirectPing
  split
  · exact hf
  · split
    · exact hf
    · split
      · exact hf
      · split
        · exact hf
        · rename_i s hs
          dsimp only
          split
          · exact hf
          · show (e.net.forwards.insert s _).get? seq = _
            rw [Map.get?_insert, if_neg, hf]
            rintro rfl
            rw [(allocSeq_spec hs).2.2.2.1] at hf
            cases hf

/-- What a call does to a relayed ping in progress. -/
theorem step_relay {e : Ep I A} (h : Reachable cfg env e) (op : Op I A) {seq : Nat} {f : Forward A}
    (hf : relaying e seq = some f) :
    relaying (e.step cfg env op).1 seq = some f ∨
    (relaying (e.step cfg env op).1 seq = none ∧ RelayEnds seq f op ∧
      ∃ l, (e.step cfg env op).1.net.transmits = e.net.transmits ++ l ∧ answerTo op f ∈ l.flatMap answersIn) := by
  by_cases h1 : ∃ now x, op = .leave now x
  · obtain ⟨now, x, rfl⟩ := h1
    left
    show (e.leaveWith cfg env now x).net.forwards.get? seq = _
    by_cases hr : e.core.lifecycle = .running
    · obtain ⟨ts, hts⟩ := leaveWith_net (cfg := cfg) (env := env) e now x hr
      rw [hts]; exact hf
    · unfold leaveWith
      rw [if_pos hr]; exact hf
  by_cases h2 : op = .pollTransmit
  · subst h2
    left
    show e.pollTransmit.1.net.forwards.get? seq = _
    rw [pollTransmit_net]; exact hf
  by_cases h3 : ∃ src p now, op = .packet src (.ping p) now
  · obtain ⟨src, p, now, rfl⟩ := h3
    left
    by_cases hr : e.core.lifecycle = .running
    · rw [ping_packet_step hr]; unfold relaying; rw [handlePing_forwards]; exact hf
    · rw [packet_stopped hr]; exact hf
  by_cases h4 : ∃ src p now, op = .packet src (.indirectPing p) now
  · obtain ⟨src, p, now, rfl⟩ := h4
    left
    by_cases hr : e.core.lifecycle = .running
    · rw [indirect_step hr]; exact handleIndirectPing_kept e src p now hf
    · rw [packet_stopped hr]; exact hf
  obtain ⟨l, ended, t1, t2, t3, t4⟩ := step_relays h op (fun now x ho => h1 ⟨now, x, ho⟩) h2
    (fun src p now ho => h3 ⟨src, p, now, ho⟩) (fun src p now ho => h4 ⟨src, p, now, ho⟩)
  have hin : (seq, f) ∈ ended ++ relays (e.step cfg env op).1 := t2.mem_iff.1 (Map.mem_of_get? hf)
  have hnd : ((ended ++ relays (e.step cfg env op).1).map Prod.fst).Nodup :=
    (t2.map Prod.fst).nodup_iff.1 (reachable_netOk h).fn
  rcases List.mem_append.1 hin with hin | hin
  · right
    refine ⟨?_, t4 _ hin, l, t1, ?_⟩
    · cases hg : relaying (e.step cfg env op).1 seq with
      | none => rfl
      | some f' =>
        exfalso
        rw [List.map_append, List.nodup_append] at hnd
        exact hnd.2.2 seq (List.mem_map.2 ⟨_, hin, rfl⟩) seq (List.mem_map.2 ⟨_, Map.mem_of_get? hg, rfl⟩) rfl
    · rw [t3]; exact List.mem_map.2 ⟨_, hin, rfl⟩
  · left
    rw [List.map_append, List.nodup_append] at hnd
    exact Map.get?_of_mem hnd.2.1 hin

/-! ### The payload of acks -/

theorem micro_payload {op : Op I A} {late : Bool} {a b : Ep I A} (hm : Micro cfg env op late a b) :
    PayloadStep cfg env op a b := by
  cases hm with
  | core x hx => exact .inl rfl
  | aux _ hc hn hf hu hp => exact hp.1
  | send t ht => exact .inl rfl
  | dial id peer d hr hd => exact .inl rfl
  | start seq p a hs hr hw hlt => exact .inl rfl
  | alloc seq hs => exact .inl rfl
  | dispatched seq b hlt => exact .inl rfl
  | fail seq p now hp hw hr hlt =>
    left
    rw [terminate_net a seq now p hp]; unfold discardProbe; dsimp only; split <;> rfl
  | done seq p direct payload now hp hd hw hr hlt =>
    left
    rw [complete_net a seq now direct payload p hp hd]
  | nack src seq now ho => left; unfold handleNack; (repeat' split) <;> rfl
  | fan seq p now peers st ho hp hk hph hd hf hl hnd ha hfit hlt => exact .inl rfl
  | fwd seq src p now ho hs hsrc hl hnew => exact .inl rfl
  | fwdAnswer seq f hf payload now ho hd => exact .inl rfl
  | fwdExpire seq f hf now ho hd => exact .inl rfl
  | intent i hr => exact .inl rfl
  | intentDial i hr hw => exact .inl rfl
  | skipId => exact .inl rfl
  | unintent id hw => exact .inl rfl
  | retire seq => left; unfold retireFallback; rfl
  | gossip targets now ho hr =>
    obtain ⟨ts, h5, _, h6⟩ := sendAll_net (a.drainGossip cfg env).1 targets (a.drainGossip cfg env).2
    left
    rw [h5, (drainGossip_net a).1]
  | leave now f ho hr =>
    obtain ⟨ts, hts⟩ := leaveWith_net (cfg := cfg) (env := env) a now f hr
    left; rw [hts]
  | poll ho => left; rw [pollTransmit_net]

theorem step_payload {e : Ep I A} (h : Reachable cfg env e) (op : Op I A) :
    (e.step cfg env op).1.net.ackPayload = e.net.ackPayload ∨
    ∃ b, op = .setAckPayload b ∧ wireLen env.CI env.CA (.ack (2 ^ 32 - 1) b : Message I A) ≤ cfg.gossipMtu ∧
      (e.step cfg env op).1.net.ackPayload = b := by
  refine step_micro_induct (Q := fun x => x.net.ackPayload = e.net.ackPayload ∨
    ∃ b, op = .setAckPayload b ∧ wireLen env.CI env.CA (.ack (2 ^ 32 - 1) b : Message I A) ≤ cfg.gossipMtu ∧
      x.net.ackPayload = b) h op (.inl rfl) ?_
  intro late b c _ _ hq hm
  rcases micro_payload hm with hp | ⟨x, ho, _, hf, hp⟩
  · rw [hp]; exact hq
  · exact .inr ⟨x, ho, hf, hp⟩

end Verif.Ep
