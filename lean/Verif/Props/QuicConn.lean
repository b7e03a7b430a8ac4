import Verif.Spec.QuicConn
import Verif.Proof.QuicConn
import Verif.Props.Messages
import Verif.Props.Deadline
import Verif.Props.Transform
import Verif.Example.QuicConn
/-! C90-C93: the connections of the QUIC node, and the datagrams it shares a socket with. -/
namespace Verif.Props
open Map

variable {A : Type} [DecidableEq A] {Q : Quinn A} {caps : QCaps}

theorem pool_step_inv {p : Pool Q} (I : TableInv Q caps p.table) (op : PoolOp Q) :
    TableInv Q caps (Pool.step Q caps p op).table := by
  cases op with
  | datagram now src b =>
    simp only [Pool.step, Pool.datagram]
    rcases Q.handle p.quinn now src b with ⟨q, _ | ev⟩
    · exact I
    · exact TableInv.route_event (p := { p with quinn := q }) I now src ev
  | dial now peer => exact I.dial _ now peer
  | use ch f => exact I.on ch _ (fun e => via_fields e _)
  | reconcile ch => exact I.reconciled ch
  | reap ch => exact I.reap _ ch

theorem pool_inv (q : Q.E) (ops : List (PoolOp Q)) : TableInv Q caps (Pool.after Q caps q ops).table := by
  unfold Pool.after
  have h : ∀ (ops : List (PoolOp Q)) (p : Pool Q), TableInv Q caps p.table →
      TableInv Q caps (ops.foldl (Pool.step Q caps) p).table := by
    intro ops
    induction ops with
    | nil => intro p I; exact I
    | cons op ops ih => intro p I; exact ih _ (pool_step_inv I op)
  exact h ops _ TableInv.init

theorem halfOpen_eq (p : Pool Q) (src : A) : p.halfOpen Q src =
    p.table.conns.tally (fun e => e.inbound && !e.established && decide (e.peer = src)) := by
  unfold Pool.halfOpen Map.tally
  rw [List.countP_eq_length_filter]

/-- C90. The node never holds more connections than `max_quic_connections`, and never more than
`max_pending_connections_per_source` connections of one source that have not been established. -/
theorem C90_caps (q : Q.E) (ops : List (PoolOp Q)) :
    (∀ m, caps.maxConns = some m → (Pool.holds Q (Pool.after Q caps q ops)).length ≤ m) ∧
    ∀ m src, caps.maxPending = some m → (Pool.after Q caps q ops).halfOpen Q src ≤ m := by
  have I := pool_inv (caps := caps) q ops
  refine ⟨?_, ?_⟩
  · intro m hm
    unfold Pool.holds
    rw [List.length_map]
    exact I.cap m hm
  · intro m src hm
    rw [halfOpen_eq]
    refine Nat.le_trans ?_ (I.capP m src hm)
    rw [I.pend src]
    apply tally_le
    intro k v hv h
    simp only [Bool.and_eq_true, Bool.not_eq_true', decide_eq_true_eq] at h ⊢
    exact ⟨I.half k v (get?_of_mem I.nc hv) h.1.1 h.1.2, h.2⟩

/-- C90. The count the node compares with the cap of a source is exact once the connections have been
looked at (`reconcile`, done for every connection in every servicing pass): it is then the number of
connections of that source that have never been seen established. In between it only errs upwards. -/
theorem C90_pending_exact (q : Q.E) (ops : List (PoolOp Q)) (src : A) :
    (Pool.after Q caps q ops).halfOpen Q src ≤ (Pool.after Q caps q ops).table.pendingFrom Q src ∧
    (Pool.after Q caps q (ops ++ (Pool.after Q caps q ops).table.conns.keys.map .reconcile)).table.pendingFrom Q src =
      (Pool.after Q caps q (ops ++ (Pool.after Q caps q ops).table.conns.keys.map .reconcile)).halfOpen Q src := by
  have I := pool_inv (caps := caps) q ops
  refine ⟨?_, ?_⟩
  · rw [halfOpen_eq, I.pend src]
    apply tally_le
    intro k v hv h
    simp only [Bool.and_eq_true, Bool.not_eq_true', decide_eq_true_eq] at h ⊢
    exact ⟨I.half k v (get?_of_mem I.nc hv) h.1.1 h.1.2, h.2⟩
  · unfold Pool.after at I ⊢
    rw [List.foldl_append]
    generalize ops.foldl (Pool.step Q caps) { quinn := q } = p at I
    have key : ∀ (l : List Nat) (p : Pool Q), TableInv Q caps p.table →
        (∀ ch e, p.table.conns.get? ch = some e → ch ∉ l → e.pendingIndexed = true → e.established = false) →
        let p' := (l.map PoolOp.reconcile).foldl (Pool.step Q caps) p
        TableInv Q caps p'.table ∧
          ∀ ch e, p'.table.conns.get? ch = some e → e.pendingIndexed = true → e.established = false := by
      intro l
      induction l with
      | nil => intro p I h; exact ⟨I, fun ch e he hx => h ch e he (by simp) hx⟩
      | cons c l ih =>
        intro p I h
        refine ih (Pool.step Q caps p (.reconcile c)) (pool_step_inv I _) ?_
        intro ch e he hc hx
        simp only [Pool.step] at he
        unfold ConnTable.reconcile at he
        have old : p.table.conns.get? ch = some e → ch ≠ c → e.established = false := fun he hn =>
          h ch e he (by simp [hn, hc]) hx
        cases hg : p.table.conns.get? c with
        | none =>
          simp only [hg] at he
          refine old he ?_
          rintro rfl
          rw [hg] at he; cases he
        | some f =>
          simp only [hg] at he
          split at he
          · next hf =>
            refine old he ?_
            rintro rfl
            rw [hg] at he
            injection he with he
            rw [he, hx] at hf
            cases hf
          · split at he
            · next hf =>
              simp only [get?_insert] at he
              split at he
              · injection he with he; rw [← he]; simpa using hf
              · next hn => exact old he (fun h => hn h.symm)
            · simp only [get?_insert] at he
              split at he
              · injection he with he; rw [← he] at hx; cases hx
              · next hn => exact old he (fun h => hn h.symm)
    obtain ⟨I', h'⟩ := key p.table.conns.keys p I (by
      intro ch e he hn
      exact absurd (mem_keys_iff.2 (by rw [he]; rfl)) hn)
    generalize (List.map PoolOp.reconcile p.table.conns.keys).foldl (Pool.step Q caps) p = p' at I' h'
    rw [halfOpen_eq, I'.pend src]
    apply tally_congr
    intro k v hv
    have hg := get?_of_mem I'.nc hv
    have a1 := I'.inb k v hg
    have a2 := I'.half k v hg
    have a3 := h' k v hg
    cases hx : v.pendingIndexed <;> cases hi : v.inbound <;> cases he : v.established <;> simp_all

/-- C90. A connection is refused only at a cap: below both, an arriving connection is handed to `quinn`,
and if `quinn` accepts it the node enters it under a handle of its own and changes no other. -/
theorem C90_refused_only_at_cap (q : Q.E) (ops : List (PoolOp Q)) (now : Nat) (src : A) (n : Q.N)
    (h1 : ∀ m, caps.maxConns = some m → (Pool.holds Q (Pool.after Q caps q ops)).length < m)
    (h2 : ∀ m, caps.maxPending = some m → (Pool.after Q caps q ops).table.pendingFrom Q src < m) :
    let p := Pool.after Q caps q ops
    let r := Pool.route Q caps p now src (.incoming n)
    r.1.quinn = (Q.accept p.quinn n now).1 ∧
    ∀ c, (Q.accept p.quinn n now).2 = .ok c →
      ∃ ch, r.2 = some ch ∧ p.conn? Q ch = none ∧ r.1.conn? Q ch = some c ∧
        (ch, src, true) ∈ Pool.holds Q r.1 ∧ ∀ ch', ch' ≠ ch → r.1.conn? Q ch' = p.conn? Q ch' := by
  intro p r
  have h1' : caps.maxConns.any (fun m => decide (m ≤ p.table.conns.length)) = false := by
    cases hm : caps.maxConns with
    | none => rfl
    | some m =>
      have := h1 m hm
      unfold Pool.holds at this
      rw [List.length_map] at this
      simpa [p] using this
  have h2' : caps.maxPending.any (fun m => decide (m ≤ p.table.pendingFrom Q src)) = false := by
    cases hm : caps.maxPending with
    | none => rfl
    | some m => have := h2 m hm; simpa [p] using this
  have hr : r = Pool.route Q caps p now src (.incoming n) := rfl
  unfold Pool.route at hr
  simp only [h1', h2', Bool.false_eq_true, if_false] at hr
  rcases ha : Q.accept p.quinn n now with ⟨q', e | c⟩
  · rw [ha] at hr
    refine ⟨?_, fun c hc => by cases hc⟩
    rw [hr]
    cases e <;> rfl
  · rw [ha] at hr
    refine ⟨by rw [hr], ?_⟩
    intro c' hc'
    injection hc' with hc'
    subst hc'
    have hf := fresh_none (Q := Q) p.table.conns
    have hc : (p.table.insertAccepted Q c src).1.conns =
        p.table.conns.insert (Q.vacant p.table.conns.keys) { conn := c, peer := src, inbound := true, pendingIndexed := true } := by
      unfold ConnTable.insertAccepted
      simp only
      split <;> rfl
    refine ⟨Q.vacant p.table.conns.keys, by rw [hr]; rfl, ?_, ?_, ?_, ?_⟩
    · unfold Pool.conn?; rw [hf]; rfl
    · rw [hr]; simp only [Pool.conn?, hc, get?_insert, if_pos]; rfl
    · rw [hr]
      unfold Pool.holds
      simp only [hc]
      exact List.mem_map.2 ⟨_, mem_of_get? (get?_insert _ _ (Q.vacant p.table.conns.keys) _ |>.trans (if_pos rfl)), rfl⟩
    · intro ch' hne
      rw [hr]
      simp only [Pool.conn?, hc, get?_insert]
      rw [if_neg (fun h => hne h.symm)]

/-- C90. At a cap an arriving connection leaves the node's connections and its queue untouched. -/
theorem C90_refused_at_cap (q : Q.E) (ops : List (PoolOp Q)) (now : Nat) (src : A) (n : Q.N)
    (h : (∃ m, caps.maxConns = some m ∧ m ≤ (Pool.holds Q (Pool.after Q caps q ops)).length) ∨
      ∃ m, caps.maxPending = some m ∧ m ≤ (Pool.after Q caps q ops).halfOpen Q src) :
    let p := Pool.after Q caps q ops
    let r := Pool.route Q caps p now src (.incoming n)
    r = ({ p with quinn := Q.ignore p.quinn n }, none) := by
  intro p r
  have hr : r = Pool.route Q caps p now src (.incoming n) := rfl
  rw [hr]
  unfold Pool.route
  rcases h with ⟨m, hm, hl⟩ | ⟨m, hm, hl⟩
  · unfold Pool.holds at hl
    rw [List.length_map] at hl
    simp only [hm, Option.any_some]
    rw [if_pos (by simpa using hl)]
    rfl
  · have := (C90_pending_exact (caps := caps) q ops src).1
    simp only [hm, Option.any_some]
    split
    · rfl
    · rw [if_pos (by simp only [decide_eq_true_eq]; exact Nat.le_trans hl this)]
      rfl

/-- C91. A route always leads to a connection the node holds, to that very peer. -/
theorem C91_route_sound (q : Q.E) (ops : List (PoolOp Q)) (peer : A) (ch : Nat)
    (h : (Pool.after Q caps q ops).routeTo Q peer = some ch) :
    ∃ b, (ch, peer, b) ∈ Pool.holds Q (Pool.after Q caps q ops) := by
  have I := pool_inv (caps := caps) q ops
  obtain ⟨e, he, hp⟩ := I.route peer ch h
  exact ⟨e.inbound, List.mem_map.2 ⟨(ch, e), mem_of_get? he, by simp [hp]⟩⟩

/-- C91. No two connections share a handle. -/
theorem C91_handles_distinct (q : Q.E) (ops : List (PoolOp Q)) :
    ((Pool.holds Q (Pool.after Q caps q ops)).map Prod.fst).Nodup := by
  have I := pool_inv (caps := caps) q ops
  have := I.nc
  unfold Pool.holds
  rw [List.map_map]
  exact this

/-- C91. A dial to a peer whose connection is open uses it: nothing is opened and nothing changes. -/
theorem C91_dial_reuses (q : Q.E) (ops : List (PoolOp Q)) (now : Nat) (peer : A) (ch : Nat) (c : Q.C)
    (h : (Pool.after Q caps q ops).routeTo Q peer = some ch) (hc : (Pool.after Q caps q ops).conn? Q ch = some c)
    (ho : Q.closed c = false) :
    (Pool.after Q caps q ops).dial Q caps now peer = (Pool.after Q caps q ops, .ok ch) := by
  have I := pool_inv (caps := caps) q ops
  unfold Pool.conn? at hc
  rw [Option.map_eq_some_iff] at hc
  obtain ⟨e, he, rfl⟩ := hc
  unfold Pool.dial
  rcases getOrDial_spec I (Pool.after Q caps q ops).quinn now peer with ⟨ch', e', h1, h2, _, h3⟩ | ⟨hx, _⟩
  · unfold Pool.routeTo at h
    rw [h1] at h
    injection h with h
    subst h
    rw [h3]
  · have := (hx ch e h he).1
    rw [ho] at this
    cases this

/-- C91. A dial that answers with a connection answers with one to that peer which the node holds; no
connection of another peer, and no other connection of this one, is touched; and the answer is the route
of the peer from then on. It is either the route there was, or a connection under a handle not in use. -/
theorem C91_dial_answer (q : Q.E) (ops : List (PoolOp Q)) (now : Nat) (peer : A) (ch : Nat)
    (h : ((Pool.after Q caps q ops).dial Q caps now peer).2 = .ok ch) :
    let p := Pool.after Q caps q ops
    let p' := (p.dial Q caps now peer).1
    (∃ b, (ch, peer, b) ∈ Pool.holds Q p') ∧ p'.routeTo Q peer = some ch ∧
    (∀ ch', ch' ≠ ch → p'.conn? Q ch' = p.conn? Q ch') ∧
    (∀ peer', peer' ≠ peer → p'.routeTo Q peer' = p.routeTo Q peer') ∧
    (p.routeTo Q peer = some ch ∧ p' = p ∨ p.conn? Q ch = none) := by
  intro p p'
  have I : TableInv Q caps p.table := pool_inv (caps := caps) q ops
  have hp' : p' = (p.dial Q caps now peer).1 := rfl
  change (p.dial Q caps now peer).2 = .ok ch at h
  unfold Pool.dial at h hp'
  rcases getOrDial_spec I p.quinn now peer with ⟨ch', e', h1, h2, _, h3⟩ | ⟨_, ⟨m, _, _, h3⟩ | ⟨_, ⟨_, h3⟩ | ⟨c, _, h3⟩⟩⟩
  · rw [h3] at h hp'
    injection h with h
    subst h
    simp only at hp'
    rw [hp']
    refine ⟨?_, h1, fun _ _ => rfl, fun _ _ => rfl, Or.inl ⟨h1, rfl⟩⟩
    exact C91_route_sound q ops peer _ h1
  · rw [h3] at h; cases h
  · rw [h3] at h; cases h
  · rw [h3] at h hp'
    injection h with h
    subst h
    simp only at hp'
    have hf := fresh_none (Q := Q) p.table.conns
    rw [hp']
    refine ⟨⟨false, ?_⟩, ?_, ?_, ?_, Or.inr ?_⟩
    · unfold Pool.holds
      exact List.mem_map.2 ⟨_, mem_of_get? (get?_insert _ _ (Q.vacant p.table.conns.keys) _ |>.trans (if_pos rfl)), rfl⟩
    · simp only [Pool.routeTo, get?_insert, if_pos]
    · intro ch' hne
      simp only [Pool.conn?, get?_insert]
      rw [if_neg (fun h => hne h.symm)]
    · intro peer' hne
      simp only [Pool.routeTo, get?_insert, get?_erase]
      rw [if_neg (fun h => hne h.symm), if_neg (fun h => hne h.symm)]
    · unfold Pool.conn?; rw [hf]; rfl

/-- C91. A dial fails only at the cap on connections, or when `quinn` refuses to connect, and it never
fails while the peer's connection is open. -/
theorem C91_dial_fails_only (q : Q.E) (ops : List (PoolOp Q)) (now : Nat) (peer : A) (err : QDialErr)
    (h : ((Pool.after Q caps q ops).dial Q caps now peer).2 = .error err) :
    let p := Pool.after Q caps q ops
    (∀ ch c, p.routeTo Q peer = some ch → p.conn? Q ch = some c → Q.closed c = true) ∧
    match err with
    | .atGlobalCap => ∃ m, caps.maxConns = some m ∧ (Pool.holds Q p).length = m
    | .connect => (Q.connect p.quinn now peer).2 = none := by
  intro p
  have I : TableInv Q caps p.table := pool_inv (caps := caps) q ops
  change (p.dial Q caps now peer).2 = .error err at h
  unfold Pool.dial at h
  rcases getOrDial_spec I p.quinn now peer with ⟨ch', e', h1, h2, _, h3⟩ | ⟨hx, hy⟩
  · rw [h3] at h; cases h
  · refine ⟨?_, ?_⟩
    · intro ch c h1 h2
      unfold Pool.conn? at h2
      rw [Option.map_eq_some_iff] at h2
      obtain ⟨e, he, rfl⟩ := h2
      exact (hx ch e h1 he).1
    · rcases hy with ⟨m, hm, hl, h3⟩ | ⟨_, ⟨hc, h3⟩ | ⟨c, _, h3⟩⟩
      · rw [h3] at h
        injection h with h
        subst h
        have := I.cap m hm
        refine ⟨m, hm, ?_⟩
        unfold Pool.holds
        rw [List.length_map]
        omega
      · rw [h3] at h
        injection h with h
        subst h
        exact hc
      · rw [h3] at h; cases h

/-- C91. Reaping a connection takes away only a drained connection and only its own route: the routes
over other connections - a redial's above all - and the other connections stay. -/
theorem C91_reap_keeps_routes (q : Q.E) (ops : List (PoolOp Q)) (ch : Nat) :
    let p := Pool.after Q caps q ops
    let p' := Pool.after Q caps q (ops ++ [.reap ch])
    (∀ ch', ch' ≠ ch → p'.conn? Q ch' = p.conn? Q ch') ∧
    (∀ peer ch', ch' ≠ ch → (p'.routeTo Q peer = some ch' ↔ p.routeTo Q peer = some ch')) ∧
    (∀ c, p.conn? Q ch = some c → Q.drained c = true →
      p'.conn? Q ch = none ∧ ∀ peer, p'.routeTo Q peer ≠ some ch) ∧
    (∀ c, p.conn? Q ch = some c → Q.drained c = false → p' = p) := by
  intro p p'
  have I : TableInv Q caps p.table := pool_inv (caps := caps) q ops
  have hp' : p' = Pool.step Q caps p (.reap ch) := by
    simp only [p', p, Pool.after, List.foldl_append, List.foldl_cons, List.foldl_nil]
  simp only [Pool.step] at hp'
  unfold ConnTable.reapIfDrained at hp'
  cases hg : p.table.conns.get? ch with
  | none =>
    simp only [hg] at hp'
    rw [hp']
    have hn : p.conn? Q ch = none := by unfold Pool.conn?; rw [hg]; rfl
    refine ⟨fun _ _ => rfl, fun _ _ _ => Iff.rfl, ?_, ?_⟩
    · intro c hc; rw [hn] at hc; cases hc
    · intro c hc; rw [hn] at hc; cases hc
  | some e =>
    have hcn : p.conn? Q ch = some e.conn := by unfold Pool.conn?; rw [hg]; rfl
    simp only [hg] at hp'
    cases hd : Q.drained e.conn with
    | false =>
      simp only [hd, Bool.not_false, if_pos] at hp'
      rw [hp']
      refine ⟨fun _ _ => rfl, fun _ _ _ => Iff.rfl, ?_, fun _ _ _ => rfl⟩
      intro c hc hd'
      rw [hcn] at hc; injection hc with hc; rw [← hc, hd] at hd'; cases hd'
    | true =>
      simp only [hd, Bool.not_true, Bool.false_eq_true, if_false] at hp'
      have hrt : ∀ peer ch', p'.routeTo Q peer = some ch' ↔ (p.routeTo Q peer = some ch' ∧ ch' ≠ ch) := by
        intro peer ch'
        rw [hp']
        unfold Pool.routeTo
        simp only
        have hroute : p.table.peers.get? peer = some ch → peer = e.peer := by
          intro h
          obtain ⟨f, hf, hfp⟩ := I.route _ _ h
          rw [hg] at hf; injection hf with hf; rw [hf, hfp]
        split
        · next hm =>
          rw [get?_erase]
          split
          · next heq =>
            subst heq
            rw [hm]
            constructor
            · intro h; cases h
            · rintro ⟨h, hne⟩; injection h with h; exact absurd h.symm hne
          · next heq =>
            constructor
            · intro h
              refine ⟨h, ?_⟩
              rintro rfl
              exact heq (hroute h).symm
            · exact fun h => h.1
        · next hm =>
          constructor
          · intro h
            refine ⟨h, ?_⟩
            rintro rfl
            exact hm (by rw [← hroute h]; exact h)
          · exact fun h => h.1
      refine ⟨?_, ?_, ?_, ?_⟩
      · intro ch' hne
        rw [hp']
        simp only [Pool.conn?, get?_erase]
        rw [if_neg (fun h => hne h.symm)]
      · intro peer ch' hne
        rw [hrt]
        exact ⟨fun h => h.1, fun h => ⟨h, hne⟩⟩
      · intro c hc _
        refine ⟨?_, ?_⟩
        · rw [hp']
          simp only [Pool.conn?, get?_erase, if_pos]
          rfl
        · intro peer h
          exact ((hrt peer ch).1 h).2 rfl
      · intro c hc hd'
        rw [hcn] at hc; injection hc with hc; rw [← hc, hd] at hd'; cases hd'

/-- C91. A connection a peer has opened becomes the route to it exactly when there is no open one. -/
theorem C91_accepted_routes (q : Q.E) (ops : List (PoolOp Q)) (peer : A) (c : Q.C) :
    let p := Pool.after Q caps q ops
    let r := p.table.insertAccepted Q c peer
    let open? := ∃ ch c', p.routeTo Q peer = some ch ∧ p.conn? Q ch = some c' ∧ Q.closed c' = false
    (open? → r.1.peers = p.table.peers) ∧ (¬ open? → r.1.peers.get? peer = some r.2) ∧
    ∀ peer', peer' ≠ peer → r.1.peers.get? peer' = p.table.peers.get? peer' := by
  intro p r open?
  have I : TableInv Q caps p.table := pool_inv (caps := caps) q ops
  have hf := fresh_none (Q := Q) p.table.conns
  have hr : r = p.table.insertAccepted Q c peer := rfl
  unfold ConnTable.insertAccepted at hr
  simp only at hr
  have husable : ConnTable.usable Q { p.table with
      conns := p.table.conns.insert (Q.vacant p.table.conns.keys) { conn := c, peer := peer, inbound := true, pendingIndexed := true }
      pending := p.table.pending.insert peer (ConnTable.count p.table.pending peer + 1) } peer = true ↔ open? := by
    unfold ConnTable.usable
    simp only
    cases hp : p.table.peers.get? peer with
    | none =>
      simp only [Option.bind_none]
      constructor
      · intro h; cases h
      · rintro ⟨ch, c', h1, _⟩
        unfold Pool.routeTo at h1
        rw [hp] at h1; cases h1
    | some ch =>
      obtain ⟨e, he, _⟩ := I.route _ _ hp
      have hne : ch ≠ Q.vacant p.table.conns.keys := by rintro rfl; rw [hf] at he; cases he
      simp only [Option.bind_some, get?_insert]
      rw [if_neg (fun h => hne h.symm), he]
      constructor
      · intro h
        refine ⟨ch, e.conn, hp, ?_, by simpa using h⟩
        unfold Pool.conn?; rw [he]; rfl
      · rintro ⟨ch', c', h1, h2, h3⟩
        unfold Pool.routeTo at h1
        rw [hp] at h1; injection h1 with h1; subst h1
        unfold Pool.conn? at h2
        rw [he] at h2
        injection h2 with h2
        simp only at h2 ⊢
        rw [h2, h3]; rfl
  refine ⟨?_, ?_, ?_⟩
  · intro ho
    rw [if_pos (husable.2 ho)] at hr
    rw [hr]
  · intro ho
    rw [if_neg (fun h => ho (husable.1 h))] at hr
    rw [hr]
    simp only [get?_insert, if_pos]
  · intro peer' hne
    rw [hr]
    split
    · rfl
    · simp only [get?_insert]
      rw [if_neg (fun h => hne h.symm)]

example : Pool.holds Ex.quinn (Pool.after Ex.quinn Ex.poolCaps (0 : Nat) Ex.poolOps) =
    [(1, 7, true), (2, 7, true), (3, 5, false), (4, 5, false)] := by decide +kernel
example : (Pool.after Ex.quinn Ex.poolCaps (0 : Nat) Ex.poolOps).routeTo Ex.quinn 5 = some 4 ∧
    (Pool.after Ex.quinn Ex.poolCaps (0 : Nat) Ex.poolOps).halfOpen Ex.quinn 7 = 1 := by decide +kernel
example : (Pool.after Ex.quinn Ex.poolCaps (0 : Nat) (Ex.poolOps ++ [.use 3 (fun _ => (3 : Nat)), .reap 3])).routeTo Ex.quinn 5 =
    some 4 := by decide +kernel
example : ((Pool.after Ex.quinn Ex.poolCaps (0 : Nat) Ex.poolOps).dial Ex.quinn Ex.poolCaps 7 6).2 =
    .error .atGlobalCap := by decide +kernel

/-- C92. The two kinds of datagram on the socket never clash: a datagram is given to the gossip codec
exactly when its first byte is a frame tag, and to `quinn` exactly when it has one of the two bits every
QUIC packet has. -/
theorem C92_classes (b : UInt8) (rest : Bytes) :
    (classifyDgram (b :: rest) = .memberlist ↔ 1 ≤ b.toNat ∧ b.toNat ≤ 15) ∧
    (classifyDgram (b :: rest) = .quic ↔ 64 ≤ b.toNat) ∧
    (classifyDgram (b :: rest) = .reject ↔ b = 0 ∨ (16 ≤ b.toNat ∧ b.toNat < 64)) ∧
    classifyDgram [] = .reject := by
  have h : ∀ b : UInt8,
      (classifyDgram (b :: rest) = .memberlist ↔ 1 ≤ b.toNat ∧ b.toNat ≤ 15) ∧
      (classifyDgram (b :: rest) = .quic ↔ 64 ≤ b.toNat) ∧
      (classifyDgram (b :: rest) = .reject ↔ b = 0 ∨ (16 ≤ b.toNat ∧ b.toNat < 64)) := by
    intro b
    have hb : b.toNat < 256 := b.toNat_lt
    have h1 : (b &&& 0xC0 ≠ 0) ↔ 64 ≤ b.toNat := by
      have : ∀ n : Fin 256, (UInt8.ofNat n.1 &&& 0xC0 ≠ 0) ↔ 64 ≤ n.1 := by decide +kernel
      have := this ⟨b.toNat, hb⟩
      simpa using this
    have h2 : (1 ≤ b ∧ b ≤ 15) ↔ (1 ≤ b.toNat ∧ b.toNat ≤ 15) := by
      rw [UInt8.le_iff_toNat_le, UInt8.le_iff_toNat_le]; rfl
    have h3 : b = 0 ↔ b.toNat = 0 := by rw [← UInt8.toNat_inj]; rfl
    simp only [classifyDgram, h1, h2, h3]
    split
    · next h => refine ⟨⟨(by intro h; cases h), (by omega)⟩, ⟨fun _ => h, fun _ => rfl⟩, ⟨(by intro h; cases h), (by omega)⟩⟩
    · next h =>
      split
      · next h' => refine ⟨⟨fun _ => h', fun _ => rfl⟩, ⟨(by intro h; cases h), (by omega)⟩, ⟨(by intro h; cases h), (by omega)⟩⟩
      · next h' => refine ⟨⟨(by intro h; cases h), (by omega)⟩, ⟨(by intro h; cases h), (by omega)⟩, ⟨(by omega), fun _ => rfl⟩⟩
  obtain ⟨h1, h2, h3⟩ := h b
  exact ⟨h1, h2, h3, rfl⟩

/-- C92. Every gossip datagram a node sends - one message or several, labelled or not, compressed or not,
checksummed or not, encrypted or not - is taken by its receiver for gossip, never for a QUIC packet. -/
theorem C92_gossip_is_gossip {I : Type} (CI : DataCodec I) (CA : DataCodec A) (B : Backends) (c : TransformConfig)
    (nonce : Bytes) (label : Option Bytes) (ms : List (Message I A)) (m : Message I A) (d w : Bytes)
    (hd : encodeOutgoing CI CA label m = .ok d ∨ encodeOutgoingCompound CI CA label ms = .ok d)
    (hw : sendGossip B c nonce d = .ok w) : classifyDgram w = .memberlist := by
  have ml : ∀ l : Bytes, (∃ b, l.head? = some b ∧ 1 ≤ b.toNat ∧ b.toNat ≤ 15) → classifyDgram l = .memberlist := by
    rintro (_ | ⟨x, l⟩) ⟨b, h, h1⟩
    · cases h
    · injection h with h; subst h; exact (C92_classes x l).1.2 h1
  have hlab : ∀ (inner : Bytes), (∃ b, inner.head? = some b ∧ 1 ≤ b.toNat ∧ b.toNat ≤ 15) → ∀ d, wrapLabel inner label = .ok d →
      ∃ b, d.head? = some b ∧ 1 ≤ b.toNat ∧ b.toNat ≤ 15 := by
    intro inner hi d hd
    unfold wrapLabel at hd
    split at hd
    · split at hd
      · cases hd
      · injection hd with hd
        subst hd
        exact ⟨LABELED_TAG, by simp [encodeLabelPrefix], by decide, by decide⟩
    · injection hd with hd; subst hd; exact hi
  have htag : ∀ t : MessageTag, 1 ≤ t.toByte.toNat ∧ t.toByte.toNat ≤ 15 := by
    intro t; cases t <;> decide
  have h0 : ∃ b, d.head? = some b ∧ 1 ≤ b.toNat ∧ b.toNat ≤ 15 := by
    rcases hd with hd | hd
    · unfold encodeOutgoing at hd
      split at hd
      · cases hd
      · next b hb =>
        split at hd
        · cases hd
        · next d' hd' =>
          injection hd with hd; subst hd
          obtain ⟨a, ha⟩ := encodeTyped_head hb
          exact hlab b ⟨_, ha, htag _⟩ _ hd'
    · unfold encodeOutgoingCompound at hd
      split at hd
      · cases hd
      · next b hb =>
        split at hd
        · cases hd
        · next d' hd' =>
          injection hd with hd; subst hd
          refine hlab b ?_ _ hd'
          unfold encodeTypedCompound at hb
          cases h1 : toAnys CI CA ms with
          | error e => simp [h1] at hb
          | ok as =>
            simp only [h1] at hb
            cases h2 : encodeCompound (as.map (fun a => (a.tag, a.body))) with
            | error e => simp [h2] at hb
            | ok b' =>
              simp only [h2, Except.ok.injEq] at hb
              subst hb
              obtain ⟨e1, e2, e3, e4⟩ := encodeCompound_ok h2
              exact ⟨1, by rw [e4]; rfl, by decide, by decide⟩
  have h1 : ∃ b, (compressPayload B c.compression d).head? = some b ∧ 1 ≤ b.toNat ∧ b.toNat ≤ 15 := by
    unfold compressPayload
    split
    · split
      · simp only
        split
        · exact ⟨COMPRESSED_TAG, rfl, by decide, by decide⟩
        · exact h0
      · exact h0
    · exact h0
  unfold sendGossip at hw
  split at hw
  · cases hw
  · next d1 hd1 =>
    have h2 : ∃ b, d1.head? = some b ∧ 1 ≤ b.toNat ∧ b.toNat ≤ 15 := by
      unfold checksumGossip at hd1
      split at hd1
      · unfold encodeChecksummedFrame at hd1
        split at hd1
        · cases hd1
        · injection hd1 with hd1; subst hd1; exact ⟨CHECKSUMED_TAG, rfl, by decide, by decide⟩
      · injection hd1 with hd1; subst hd1; exact h1
    split at hw
    · cases hw
    · next w' hw' =>
      injection hw with hw
      subst hw
      apply ml
      unfold encryptPayload at hw'
      split at hw'
      · injection hw' with hw'; subst hw'; exact h2
      · unfold encodeEncryptedFrame at hw'
        split at hw'
        · cases hw'
        · injection hw' with hw'; subst hw'; exact ⟨ENCRYPTED_TAG, rfl, by decide, by decide⟩

example : (encodeOutgoing stringCodec addrCodec (some [0x61]) (.nack 5)).toOption = some [12, 1, 0x61, 10, 2, 8, 5] := by
  decide +kernel
example : (sendGossip toyB ⟨⟨some .lz4, 0⟩, some .crc32, some ⟨toyKey1, []⟩⟩ (List.replicate 12 9)
    [12, 1, 0x61, 10, 2, 8, 5]).toOption.map classifyDgram = some .memberlist := by decide +kernel

/-- C93. The instant that decides whether a wake-up is for a genuine timer: over any history of the timer
index, the earliest deadline apart from two anchors is the minimum over all other keys. -/
theorem C93_earliest_excluding {K : Type} [DecidableEq K] (ops : List (DeadlineOp K)) (a b : K) (d : Nat) :
    (ops.foldl DeadlineOp.apply DeadlineIndex.new).earliestExcluding2 a b = some d ↔
      (∃ k, k ≠ a ∧ k ≠ b ∧ lastDeadline k ops = some d) ∧
      ∀ k d', k ≠ a → k ≠ b → lastDeadline k ops = some d' → d ≤ d' := by
  obtain ⟨I, h⟩ := deadline_run ops
  rw [earliestExcluding2_spec I]
  simp only [h]

/-- C93. There is none exactly if no other key has a deadline. -/
theorem C93_none {K : Type} [DecidableEq K] (ops : List (DeadlineOp K)) (a b : K) :
    (ops.foldl DeadlineOp.apply DeadlineIndex.new).earliestExcluding2 a b = none ↔
      ∀ k, k ≠ a → k ≠ b → lastDeadline k ops = none := by
  obtain ⟨I, h⟩ := deadline_run ops
  rw [earliestExcluding2_none I]
  simp only [h]

example : ([DeadlineOp.set 1 (some 9), .set 2 (some 7), .set 3 (some 8)].foldl DeadlineOp.apply
    (DeadlineIndex.new (K := Nat))).earliestExcluding2 2 3 = some 9 := by decide

end Verif.Props
