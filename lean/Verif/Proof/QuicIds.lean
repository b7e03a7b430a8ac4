import Verif.Proof.QuicBooks
import Verif.Proof.Dials
/-
The exchanges of the QUIC node carry distinct ids: those that wait for a dial, the one being dialled, those that run
on a stream, and those reported.
-/
namespace Verif.Ep
open Verif Core Spec
variable {I A : Type} [DecidableEq I] [DecidableEq A]
variable {cfg : Cfg I A} {env : Env I A}

omit [DecidableEq I] [DecidableEq A] in
theorem DialOk.less {hd hd' x : List Nat} {e : Ep I A} (h : DialOk hd e) (hp : (hd' ++ x).Perm hd) : DialOk hd' e := by
  have hp2 : (x ++ (hd' ++ (dialQ e).map Prod.fst)).Perm (hd ++ (dialQ e).map Prod.fst) := by
    rw [← List.append_assoc]
    exact (List.perm_append_comm.trans hp).append_right _
  refine ⟨?_, fun y hy => h.lt y (hp2.subset (List.mem_append_right _ hy)), h.agree⟩
  exact (hp2.nodup_iff.2 h.nodup).sublist (List.sublist_append_right _ _)

omit [DecidableEq I] [DecidableEq A] in
theorem DialOk.perm {hd hd' : List Nat} {e : Ep I A} (h : DialOk hd e) (hp : hd'.Perm hd) : DialOk hd' e :=
  h.less (x := []) (by rw [List.append_nil]; exact hp)

/-- A sequence of calls. -/
theorem DialOk.calls (l : List (Option Nat × Op I A)) : ∀ {hd : List Nat} {e : Ep I A}, Reachable cfg env e →
    (∀ c ∈ l, ∀ id peer d, c.2 ≠ .requeueDial id peer d) → DialOk hd e →
    DialOk hd (l.foldl (fun e c => (e.step cfg env c.2).1) e) := by
  induction l with
  | nil => intro hd e _ _ h; exact h
  | cons c l ih =>
    intro hd e hr hq h
    exact ih (reachable_step hr c.2) (fun x hx => hq x (List.mem_cons_of_mem _ hx))
      ((h.step hr c.2 (hq c List.mem_cons_self)).less (x := _) (.refl _))

theorem calls_reachable (l : List (Option Nat × Op I A)) : ∀ {e : Ep I A}, Reachable cfg env e →
    Reachable cfg env (l.foldl (fun e c => (e.step cfg env c.2).1) e) := by
  induction l with
  | nil => intro e h; exact h
  | cons c l ih => intro e h; exact ih (reachable_step h c.2)

theorem calls_ids (l : List (Option Nat × Op I A)) : ∀ {e : Ep I A}, Reachable cfg env e →
    IdsStep e (l.foldl (fun e c => (e.step cfg env c.2).1) e) := by
  induction l with
  | nil => intro e _; exact .refl e
  | cons c l ih => intro e h; exact (step_ids h c.2).trans (ih (reachable_step h c.2))

end Verif.Ep

namespace Verif.Quic
open Verif Map QBridge
variable {I A : Type} [DecidableEq I] [DecidableEq A] {Q : Quinn A}
variable {cfg : Cfg I A} {env : Env I A} {X : QCfg} {T : TEnv} {G : List Nat}

/-! ### The connection table -/

theorem table_step {D : Prop} {ch : Nat} {t t' : ConnTable Q.C Q.V A} (h : TableInv Q X.caps t) (hs : ConnStep Q D ch t t') :
    TableInv Q X.caps t' := by
  rcases hs with rfl | ⟨e, e', h1, rfl, h2, h3, h4, _, h5, _⟩
  · exact h
  · exact h.update h1 h2 h3 h4 h5

theorem table_out {t : ConnTable Q.C Q.V A} (h : TableInv Q X.caps t) (ch : Nat) :
    TableInv Q X.caps (t.on Q ch (fun e => ({ e with outbound := e.outbound + 1 }, ()))).1 :=
  h.on ch _ (fun _ => ⟨rfl, rfl, rfl, fun h => h⟩)

theorem complete_table (s : Quic I Q) (id : Nat) (ok : Bool) : (s.complete cfg env id ok).pool = s.pool := by
  unfold complete
  split
  · rfl
  · split <;> rfl

theorem unslot_rest (s : Quic I Q) (ch slot : Nat) : (s.unslot ch slot).pool = s.pool ∧
    (s.unslot ch slot).kinds = s.kinds ∧ (s.unslot ch slot).peers = s.peers ∧ (s.unslot ch slot).ep = s.ep ∧
    (s.unslot ch slot).calls = s.calls ∧ (s.unslot ch slot).bridges.keys = s.bridges.keys ∧
    ∀ x, ∃ k : QBridge I A → Nat, (s.unslot ch slot).bridges.get? x = (s.bridges.get? x).map (fun b => { b with slot := k b }) := by
  have hid : ∀ x, ∃ k : QBridge I A → Nat, s.bridges.get? x = (s.bridges.get? x).map (fun b => { b with slot := k b }) := fun x =>
    ⟨fun b => b.slot, by cases s.bridges.get? x <;> rfl⟩
  unfold unslot
  split
  · exact ⟨rfl, rfl, rfl, rfl, rfl, rfl, hid⟩
  · split
    · dsimp only
      refine ⟨rfl, rfl, rfl, rfl, rfl, ?_, ?_⟩
      · split
        · exact keys_modify ..
        · rfl
      · intro x
        split
        · next sib _ =>
          rw [get?_modify]
          split
          · exact ⟨fun _ => slot, rfl⟩
          · exact hid x
        · exact hid x
    · exact ⟨rfl, rfl, rfl, rfl, rfl, rfl, hid⟩

theorem freeSlot_rest (s : Quic I Q) (ch : Nat) : (s.freeSlot ch).kinds = s.kinds ∧ (s.freeSlot ch).peers = s.peers ∧
    (s.freeSlot ch).ep = s.ep ∧ (s.freeSlot ch).calls = s.calls ∧ (s.freeSlot ch).bridges = s.bridges := by
  unfold freeSlot
  split <;> exact ⟨rfl, rfl, rfl, rfl, rfl⟩

theorem freeSlot_table (s : Quic I Q) (ch : Nat) (h : TableInv Q X.caps s.pool.table) :
    TableInv Q X.caps (s.freeSlot ch).pool.table := by
  unfold freeSlot
  split
  · exact h
  · next e he => exact h.update he rfl rfl rfl (fun h => h)

/-- The end of a bridge before its report. -/
def preReap (s : Quic I Q) (id : Nat) (b : QBridge I A) (ch : Nat) (lost : Bool) : Quic I Q :=
  let s := s.unindex id ch b.sid
  let s := if lost then { s with doom := s.doom.tail } else s.unslot ch b.slot
  if b.eager then s.freeSlot ch else s

theorem reapBridge_pre (s : Quic I Q) (id : Nat) (b : QBridge I A) (ch : Nat) (lost : Bool) :
    s.reapBridge cfg env id b ch lost = (s.preReap id b ch lost).complete cfg env id (!b.isFailed) := rfl

theorem preReap_rest (s : Quic I Q) (id : Nat) (b : QBridge I A) (ch : Nat) (lost : Bool) :
    (s.preReap id b ch lost).kinds = s.kinds ∧ (s.preReap id b ch lost).peers = s.peers ∧
    (s.preReap id b ch lost).ep = s.ep ∧ (s.preReap id b ch lost).calls = s.calls ∧
    (s.preReap id b ch lost).bridges.keys = (s.bridges.erase id).keys ∧
    (∀ x, ∃ k : QBridge I A → Nat, (s.preReap id b ch lost).bridges.get? x = ((s.bridges.erase id).get? x).map (fun b => { b with slot := k b })) ∧
    (TableInv Q X.caps s.pool.table → TableInv Q X.caps (s.preReap id b ch lost).pool.table) := by
  have h0 : ∀ s' : Quic I Q, s'.kinds = s.kinds → s'.peers = s.peers → s'.ep = s.ep → s'.calls = s.calls →
      s'.bridges.keys = (s.bridges.erase id).keys →
      (∀ x, ∃ k : QBridge I A → Nat, s'.bridges.get? x = ((s.bridges.erase id).get? x).map (fun b => { b with slot := k b })) →
      s'.pool = s.pool →
      (if b.eager then s'.freeSlot ch else s').kinds = s.kinds ∧ (if b.eager then s'.freeSlot ch else s').peers = s.peers ∧
      (if b.eager then s'.freeSlot ch else s').ep = s.ep ∧ (if b.eager then s'.freeSlot ch else s').calls = s.calls ∧
      (if b.eager then s'.freeSlot ch else s').bridges.keys = (s.bridges.erase id).keys ∧
      (∀ x, ∃ k : QBridge I A → Nat, (if b.eager then s'.freeSlot ch else s').bridges.get? x =
        ((s.bridges.erase id).get? x).map (fun b => { b with slot := k b })) ∧
      (TableInv Q X.caps s.pool.table → TableInv Q X.caps (if b.eager then s'.freeSlot ch else s').pool.table) := by
    intro s' h1 h2 h3 h4 h5 h6 h7
    cases b.eager with
    | false => exact ⟨h1, h2, h3, h4, h5, h6, fun h => h7 ▸ h⟩
    | true =>
      obtain ⟨f1, f2, f3, f4, f5⟩ := freeSlot_rest s' ch
      refine ⟨f1.trans h1, f2.trans h2, f3.trans h3, f4.trans h4, ?_, ?_, fun h => freeSlot_table s' ch (h7 ▸ h)⟩
      · rw [if_pos rfl, f5]; exact h5
      · rw [if_pos rfl, f5]; exact h6
  unfold preReap
  dsimp only
  cases lost with
  | true =>
    refine h0 { s.unindex id ch b.sid with doom := (s.unindex id ch b.sid).doom.tail } rfl rfl rfl rfl rfl ?_ rfl
    exact fun x => ⟨fun b => b.slot, by show (s.bridges.erase id).get? x = _; cases (s.bridges.erase id).get? x <;> rfl⟩
  | false =>
    obtain ⟨u1, u2, u3, u4, u5, u6, u7⟩ := unslot_rest (s.unindex id ch b.sid) ch b.slot
    exact h0 _ u2 u3 u4 u5 u6 u7 u1

/-- Whether a report follows. -/
theorem complete_cases (s : Quic I Q) (id : Nat) (ok : Bool) :
    (s.kinds.get? id = none ∧ s.complete cfg env id ok = s) ∨
    (∃ k, s.kinds.get? id = some k ∧ s.peers.get? id = none ∧
      s.complete cfg env id ok = { s with kinds := s.kinds.erase id, panicked := true }) ∨
    ∃ k p, s.kinds.get? id = some k ∧ s.peers.get? id = some p ∧
      s.complete cfg env id ok = { s with
        kinds := s.kinds.erase id, peers := s.peers.erase id
        ep := (s.ep.step cfg env (.external (some ⟨id, p, ok, k⟩))).1
        calls := s.calls ++ [(some id, .external (some ⟨id, p, ok, k⟩))] } := by
  unfold complete
  cases hk : s.kinds.get? id with
  | none => exact .inl ⟨rfl, rfl⟩
  | some k =>
    cases hp : s.peers.get? id with
    | none => exact .inr (.inl ⟨k, rfl, rfl, rfl⟩)
    | some p => exact .inr (.inr ⟨k, p, rfl, rfl, rfl⟩)

theorem table_move {a b : Quic I Q} (h : TableInv Q X.caps a.pool.table) (hm : Move cfg env X T a b) :
    TableInv Q X.caps b.pool.table := by
  cases hm with
  | push src bytes => unfold pushIngress; split <;> exact h
  | conn hs => exact table_step h hs
  | reconcile ch => exact h.reconciled ch
  | dial now peer => exact h.dial _ now peer
  | dialLost now peer ch _ _ => exact h.dial _ now peer
  | arrive now src bytes _ =>
    dsimp only
    unfold Pool.datagram
    rcases Q.handle a.pool.quinn now src bytes with ⟨q, _ | ev⟩
    · exact h
    · exact TableInv.route_event (p := { a.pool with quinn := q }) h now src ev
  | reapConn ch _ => exact h.reap _ ch
  | sieve _ => unfold takeDials; rw [sieve_eq]; exact h
  | pollDial id peer deadline _ => unfold setTimer; rw [queueDial_eq]; exact h
  | takeEntry d rest _ _ => rw [takeEntry_eq]; exact h
  | repark d now _ => obtain ⟨w, hw⟩ := repark_eq (X := X) a d now; rw [hw]; exact h
  | retire d _ => rw [retire_eq]; exact h
  | launch op id peer deadline kind _ _ _ _ => rw [launch_eq]; exact h
  | mint d now ch sid e t st _ hd he _ ht _ =>
    have h1 := TableInv.dial h a.pool.quinn now d.peer
    have h2 := h1.on (R := Option Nat) ch (fun e => e.via Q Q.openBi) (fun e => via_fields e _)
    have h3 : TableInv Q X.caps t := by
      have : ((a.pool.dial Q X.caps now d.peer).1.table.on Q ch (fun e => e.via Q Q.openBi)).1 = t := by rw [ht]
      rw [← this]; exact h2
    exact table_out h3 ch
  | reap id ch b lost _ _ _ _ =>
    rw [reapBridge_pre, complete_table]
    exact (preReap_rest a id b ch lost).2.2.2.2.2.2 h
  | _ => exact h

/-! ### Ids -/

/-- The exchange a call reports. -/
def reportedId : Option Nat × Ep.Op I A → Option Nat
  | (some x, .external (some _)) => some x
  | _ => none

/-- The exchanges reported so far. -/
def done (s : Quic I Q) : List Nat := s.calls.filterMap reportedId

/-- Every dial not yet done with. -/
def entries (s : Quic I Q) : List (QDial A) := s.waiting ++ s.limbo.toList

/-- Every exchange the node holds. -/
def held (s : Quic I Q) : List Nat := s.entries.map QDial.id ++ s.bridges.keys

/-- A dial goes where its request says. -/
def Agrees (e : Ep I A) (d : QDial A) : Prop :=
  ∀ i, e.net.intents.get? d.id = some i → i.peer = d.peer ∧ e.intentKind d.id = d.kind

omit [DecidableEq I] in
theorem intentKind_congr {e e' : Ep I A} {id : Nat} (h : e'.net.intents.get? id = e.net.intents.get? id) :
    e'.intentKind id = e.intentKind id := by
  unfold Ep.intentKind; rw [h]

theorem Agrees.step {e e' : Ep I A} {d d' : QDial A} (h : Agrees e d) (hi : Ep.IdsStep e e') (hlt : d.id < e.net.nextStreamId)
    (h1 : d'.id = d.id) (h2 : d'.peer = d.peer) (h3 : d'.kind = d.kind) : Agrees e' d' := by
  intro i hi'
  rw [h1] at hi' ⊢
  have ho := hi.old _ _ hlt hi'
  rw [h2, h3, intentKind_congr (hi'.trans ho.symm)]
  exact h i ho

/-- `G` are further exchanges that are over. -/
structure IdsInv (cfg : Cfg I A) (env : Env I A) (X : QCfg) (G : List Nat) (s : Quic I Q) : Prop where
  reach : Spec.Reachable cfg env s.ep
  table : TableInv Q X.caps s.pool.table
  ids : Ep.DialOk (G ++ s.done ++ s.held) s.ep
  agree : ∀ d ∈ s.entries, Agrees s.ep d

theorem IdsInv.lt {s : Quic I Q} (h : IdsInv cfg env X G s) {x : Nat} (hx : x ∈ s.held) : x < s.ep.net.nextStreamId :=
  h.ids.lt x (List.mem_append_left _ (List.mem_append_right _ hx))

theorem entry_held {s : Quic I Q} {d : QDial A} (h : d ∈ s.entries) : d.id ∈ s.held :=
  List.mem_append_left _ (List.mem_map_of_mem h)

/-- Calls that hand out no new id; some exchanges are let go of, some of these are reported. -/
theorem IdsInv.same {s s' : Quic I Q} (h : IdsInv cfg env X G s) (l : List (Option Nat × Ep.Op I A))
    (hc : s'.calls = s.calls ++ l) (he : s'.ep = l.foldl (fun e c => (e.step cfg env c.2).1) s.ep)
    (hq : ∀ c ∈ l, ∀ id peer d, c.2 ≠ .requeueDial id peer d) (ht : TableInv Q X.caps s'.pool.table)
    (x : List Nat) (hh : (l.filterMap reportedId ++ s'.held ++ x).Perm s.held)
    (ha : ∀ d ∈ s'.entries, ∃ d' ∈ s.entries, d.id = d'.id ∧ d.peer = d'.peer ∧ d.kind = d'.kind) :
    IdsInv cfg env X G s' := by
  refine ⟨he ▸ Ep.calls_reachable l h.reach, ht, ?_, ?_⟩
  · have h1 := Ep.DialOk.calls (cfg := cfg) (env := env) l h.reach hq h.ids
    rw [he]
    refine h1.less (x := x) ?_
    unfold done
    rw [hc, List.filterMap_append]
    simp only [List.append_assoc] at hh ⊢
    exact (hh.append_left _).append_left _
  · intro d hd
    obtain ⟨d', hd', h1, h2, h3⟩ := ha d hd
    rw [he]
    exact (h.agree d' hd').step (Ep.calls_ids l h.reach) (h.lt (entry_held hd')) h1 h2 h3

/-- No endpoint call is made. -/
theorem IdsInv.still {s s' : Quic I Q} (h : IdsInv cfg env X G s) (hc : s'.calls = s.calls) (he : s'.ep = s.ep)
    (ht : TableInv Q X.caps s'.pool.table) (x : List Nat) (hh : (s'.held ++ x).Perm s.held)
    (ha : ∀ d ∈ s'.entries, ∃ d' ∈ s.entries, d.id = d'.id ∧ d.peer = d'.peer ∧ d.kind = d'.kind) :
    IdsInv cfg env X G s' :=
  h.same [] (by rw [hc, List.append_nil]) he (by simp) ht x hh ha

theorem entries_same {s s' : Quic I Q} (h : s'.entries.Perm s.entries) :
    ∀ d ∈ s'.entries, ∃ d' ∈ s.entries, d.id = d'.id ∧ d.peer = d'.peer ∧ d.kind = d'.kind :=
  fun d hd => ⟨d, h.subset hd, rfl, rfl, rfl⟩

/-- The same dials and the same bridges. -/
theorem IdsInv.quiet {s s' : Quic I Q} (h : IdsInv cfg env X G s) (l : List (Option Nat × Ep.Op I A))
    (hc : s'.calls = s.calls ++ l) (he : s'.ep = l.foldl (fun e c => (e.step cfg env c.2).1) s.ep)
    (hq : ∀ c ∈ l, ∀ id peer d, c.2 ≠ .requeueDial id peer d) (hr : l.filterMap reportedId = [])
    (ht : TableInv Q X.caps s'.pool.table) (hp : s'.entries.Perm s.entries) (hb : s'.bridges.keys = s.bridges.keys) :
    IdsInv cfg env X G s' := by
  refine h.same l hc he hq ht [] ?_ (entries_same hp)
  rw [hr, List.nil_append, List.append_nil]
  unfold held
  rw [hb]
  exact (hp.map _).append_right _

/-- A new exchange. -/
theorem IdsInv.grow {s s' : Quic I Q} (h : IdsInv cfg env X G s) (op : Ep.Op I A) (l : List (QDial A)) (nb : List Nat)
    (hc : s'.calls = s.calls ++ [(none, op)]) (he : s'.ep = (s.ep.step cfg env op).1)
    (ht : TableInv Q X.caps s'.pool.table)
    (hd : Ep.DialOk (G ++ s.done ++ s.held ++ (l.map QDial.id ++ nb)) (s.ep.step cfg env op).1)
    (hp : s'.entries.Perm (l ++ s.entries)) (hb : s'.bridges.keys = s.bridges.keys ++ nb)
    (ha : ∀ d ∈ l, Agrees (s.ep.step cfg env op).1 d) : IdsInv cfg env X G s' := by
  refine ⟨he ▸ Ep.reachable_step h.reach op, ht, ?_, ?_⟩
  · rw [he]
    refine hd.perm ?_
    have hdone : s'.done = s.done := by
      unfold done
      rw [hc, List.filterMap_append]
      show s.done ++ [] = _
      rw [List.append_nil]; rfl
    rw [hdone, List.append_assoc (G ++ s.done) s.held]
    refine List.Perm.append_left _ ?_
    unfold held
    rw [hb]
    refine ((hp.map _).append_right _).trans ?_
    rw [List.map_append]
    simp only [List.append_assoc]
    refine (List.perm_append_comm_assoc ..).trans ?_
    exact (List.perm_append_comm_assoc ..).append_left _
  · intro d hd'
    rw [he]
    rcases List.mem_append.1 (hp.subset hd') with hm | hm
    · exact ha d hm
    · exact (h.agree d hm).step (Ep.step_ids h.reach op) (h.lt (entry_held hm)) rfl rfl rfl

/-- What a started exchange leaves in the endpoint. -/
theorem started_facts {e : Ep I A} {op : Ep.Op I A} {id : Nat} {peer : A} {deadline : Nat} {kind : ExKind}
    (h : Started cfg env e op id peer deadline kind) :
    id = e.net.nextStreamId ∧ (Spec.dialsIn (e.step cfg env op).2).map Prod.fst = [id] ∧
    (∀ x p d, op ≠ .requeueDial x p d) ∧ reportedId (none, op) = none ∧
    ∃ i, (e.step cfg env op).1.net.intents.get? id = some i ∧ i.peer = peer ∧ i.deadline = deadline ∧
      (e.step cfg env op).1.intentKind id = kind := by
  cases h with
  | pushPull _ k now i hi =>
    refine ⟨?_, ?_, by simp, rfl, ?_⟩
    · unfold Ep.startPushPullDirect; dsimp only; split <;> rfl
    all_goals
      simp only [Ep.step]
      unfold Ep.startPushPullDirect at hi ⊢
      dsimp only at hi ⊢
      split at hi
      · cases hi
      · next hr =>
        rw [if_neg hr]
        injection hi with hi
        subst hi
        first
          | rfl
          | exact ⟨_, get?_insert_self .., rfl, rfl, by unfold Ep.intentKind Ep.insertIntent; dsimp only; rw [get?_insert_self]⟩
  | reliablePing pid _ seq d i hi =>
    refine ⟨?_, ?_, by simp, rfl, ?_⟩
    · unfold Ep.startReliablePingDirect; dsimp only; split <;> rfl
    all_goals
      simp only [Ep.step]
      unfold Ep.startReliablePingDirect at hi ⊢
      dsimp only at hi ⊢
      split at hi
      · cases hi
      · next hr =>
        rw [if_neg hr]
        injection hi with hi
        subst hi
        first
          | rfl
          | exact ⟨_, get?_insert_self .., rfl, rfl, by unfold Ep.intentKind Ep.insertIntent; dsimp only; rw [get?_insert_self]⟩
  | userMessage _ payload now _ i hi =>
    unfold Ep.startUserMessageDirect at hi
    split at hi
    · cases hi
    · next hr =>
      dsimp only at hi
      injection hi with hi
      injection hi with h1 h2
      subst h1 h2
      refine ⟨rfl, ?_, by simp, rfl, ?_⟩
      all_goals
        simp only [Ep.step]
        unfold Ep.startUserMessageDirect
        rw [if_neg hr]
        first
          | rfl
          | exact ⟨_, get?_insert_self .., rfl, rfl, by unfold Ep.intentKind Ep.insertIntent; dsimp only; rw [get?_insert_self]⟩

/-- The stream of a dial that succeeded. -/
theorem minted_facts {e : Ep I A} {id now : Nat} {st : Stream I A}
    (h : (e.step cfg env (.dialSucceeded id now)).2 = .stream (some st)) :
    st.id = id ∧ st.pollTimeout.isSome = true ∧ ∃ i, e.net.intents.get? id = some i ∧ st.peer = i.peer := by
  simp only [Ep.step] at h
  injection h with h
  unfold Ep.dialSucceeded at h
  split at h
  · cases h
  · next i hi =>
    dsimp only at h
    split at h
    · cases h
    · split at h
      · cases h
      · injection h with h
        subst h
        exact ⟨rfl, rfl, i, hi, rfl⟩

/-- An accepted stream. -/
theorem accepted_facts {e : Ep I A} {src : A} {now : Nat} {st : Stream I A}
    (h : (e.step cfg env (.acceptStream src now)).2 = .stream (some st)) :
    st.id = e.net.nextStreamId ∧ st.pollTimeout.isSome = true ∧ st.peer = src ∧
    (e.step cfg env (.acceptStream src now)).1.net.nextStreamId = e.net.nextStreamId + 1 ∧
    (e.step cfg env (.acceptStream src now)).1.core = e.core := by
  simp only [Ep.step] at h ⊢
  injection h with h
  unfold Ep.acceptStream at h ⊢
  split at h
  · cases h
  · next hr =>
    rw [if_neg hr]
    injection h with h
    subst h
    exact ⟨rfl, rfl, rfl, rfl, rfl⟩

omit [DecidableEq I] in
theorem dialsOf_eq (l : List (Event I A)) : Coord.dialsOf l = l.filterMap Spec.dialOf := by
  induction l with
  | nil => rfl
  | cons ev l ih => cases ev <;> first | exact ih | exact congrArg (List.cons _) ih


omit [DecidableEq I] in
theorem keys_new {m : Map Nat (QBridge I A)} {k : Nat} (h : k ∉ m.keys) (b : QBridge I A) : (m.insert k b).keys = m.keys ++ [k] := by
  rw [keys_insert, if_neg h]

omit [DecidableEq I] in
theorem keys_old {m : Map Nat (QBridge I A)} {k : Nat} {b : QBridge I A} (h : m.get? k = some b) (b' : QBridge I A) :
    (m.insert k b').keys = m.keys := by
  rw [keys_insert, if_pos (mem_keys.2 ⟨b, mem_of_get? h⟩)]

omit [DecidableEq I] in
theorem keys_drop {m : Map Nat (QBridge I A)} (hn : m.NodupKeys) {k : Nat} {b : QBridge I A} (h : m.get? k = some b) :
    m.keys.Perm (k :: (m.erase k).keys) := by
  rw [keys_erase]
  have hm : k ∈ m.keys := mem_keys.2 ⟨b, mem_of_get? h⟩
  have h1 := List.perm_cons_erase hm
  have h2 : m.keys.erase k = m.keys.filter (· ≠ k) := by
    rw [hn.erase_eq_filter]
    apply List.filter_congr
    intro x _
    simp [bne]
    rfl
  rw [← h2]; exact h1

theorem IdsInv.bridges_nodup {s : Quic I Q} (h : IdsInv cfg env X G s) : s.bridges.NodupKeys := by
  have h1 := h.ids.nodup
  unfold held at h1
  have hs : s.bridges.keys.Sublist (G ++ s.done ++ (s.entries.map QDial.id ++ s.bridges.keys) ++ (Ep.dialQ s.ep).map Prod.fst) :=
    ((List.sublist_append_right _ _).trans (List.sublist_append_right _ _)).trans (List.sublist_append_left _ _)
  exact h1.sublist hs

theorem IdsInv.fresh {s : Quic I Q} (h : IdsInv cfg env X G s) : s.ep.net.nextStreamId ∉ s.held :=
  fun hm => Nat.lt_irrefl _ (h.lt hm)

/-- The ids of the bridges and of the dials are distinct. -/
theorem IdsInv.apart {s : Quic I Q} (h : IdsInv cfg env X G s) {d : QDial A} (hd : d ∈ s.entries) : d.id ∉ s.bridges.keys := by
  have h1 := h.ids.nodup
  have h2 : s.held.Nodup := (h1.sublist (List.sublist_append_left _ _)).sublist (List.sublist_append_right _ _)
  unfold held at h2
  intro hk
  exact (List.disjoint_of_nodup_append h2) (List.mem_map_of_mem hd) hk

/-- A dial put back waits again. -/
theorem repark_waiting {s : Quic I Q} (h : BooksInv s) (d : QDial A) (now : Nat) :
    ∃ w, (s.repark X d now).waiting.Perm ({ d with wake := w, attempted := true } :: s.waiting) := by
  obtain ⟨w, hw⟩ := repark_eq (X := X) s d now
  refine ⟨w, ?_⟩
  rw [hw]
  generalize hb : s.bucketOf d.peer = bucket
  unfold bucketOf at hb
  have hfl : (flat s.parked).Perm (bucket ++ flat (s.parked.erase d.peer)) := by
    cases hg : s.parked.get? d.peer with
    | none => rw [hg] at hb; subst hb; rw [erase_absent hg]; exact .refl _
    | some l => rw [hg] at hb; subst hb; exact flat_erase h.np hg
  generalize hn : (if d.kind = ExKind.reliablePing then
      { d with wake := w, attempted := true } :: bucket
      else bucket ++ [{ d with wake := w, attempted := true }]) = l'
  have hl' : l'.Perm ({ d with wake := w, attempted := true } :: bucket) := by
    subst hn
    split
    · exact .refl _
    · exact List.perm_append_comm
  show (s.dials ++ flat (s.parked.insert d.peer l') ++ s.hand).Perm ({ d with wake := w, attempted := true } :: (s.dials ++ flat s.parked ++ s.hand))
  have h1 : (flat (s.parked.insert d.peer l')).Perm ({ d with wake := w, attempted := true } :: flat s.parked) := by
    refine (flat_insert s.parked h.np d.peer l').trans ((hl'.append_right _).trans ?_)
    exact (hfl.symm.cons _)
  refine ((h1.append_left _).append_right _).trans ?_
  rw [List.append_assoc, List.cons_append, List.append_assoc]
  exact List.perm_middle

theorem entries_none {s : Quic I Q} (h : s.limbo = none) : s.entries = s.waiting := by
  unfold entries; rw [h]; exact List.append_nil _

theorem entries_some {s : Quic I Q} {d : QDial A} (h : s.limbo = some d) : s.entries = s.waiting ++ [d] := by
  unfold entries; rw [h]; rfl

/-- The entry being dialled is let go of. -/
theorem entries_drop {s s' : Quic I Q} {d : QDial A} (h : s.limbo = some d) (h' : s'.limbo = none) (hw : s'.waiting = s.waiting) :
    s.entries = s'.entries ++ [d] := by
  rw [entries_some h, entries_none h', hw]

theorem sub_entries {s s' : Quic I Q} {d : QDial A} (h : s.entries = s'.entries ++ [d]) :
    ∀ x ∈ s'.entries, ∃ d' ∈ s.entries, x.id = d'.id ∧ x.peer = d'.peer ∧ x.kind = d'.kind :=
  fun x hx => ⟨x, by rw [h]; exact List.mem_append_left _ hx, rfl, rfl, rfl⟩

theorem IdsInv.move {a b : Quic I Q} (h : IdsInv cfg env X G a) (hk : BooksInv a) (hm : Move cfg env X T a b) : IdsInv cfg env X G b := by
  have ht := table_move h.table hm
  have one : ∀ (x : Option Nat) (op : Ep.Op I A), Plain op → (∀ c ∈ [(x, op)], ∀ id peer d, c.2 ≠ Ep.Op.requeueDial id peer d) ∧
      [(x, op)].filterMap reportedId = [] := by
    intro x op hp
    constructor
    · intro c hc id peer d he
      rw [List.mem_singleton] at hc
      subst hc
      dsimp only at he
      subst he
      exact hp
    · have : reportedId (x, op) = none := by
        cases x with
        | none => rfl
        | some x => cases op <;> first | rfl | exact hp.elim
      rw [List.filterMap_cons_none this]; rfl
  cases hm with
  | push src bytes => refine h.still ?_ ?_ ht [] ?_ (entries_same ?_) <;> unfold pushIngress <;> split <;> first | rfl | (rw [List.append_nil]; exact .refl _) | exact .refl _
  | call x op hp => exact h.quiet [(x, op)] rfl rfl (one x op hp).1 (one x op hp).2 ht (.refl _) rfl
  | noop x op he hx hpay =>
    have hr : reportedId (x, op) = none := by
      cases x with
      | none => rfl
      | some x => cases op <;> first | rfl | exact absurd rfl (hx _)
    refine ⟨?_, ht, ?_, ?_⟩
    · show Spec.Reachable cfg env (a.ep.step cfg env op).1
      rw [he]; exact h.reach
    · have : (a.callEp cfg env x op).1.done = a.done := by
        unfold done callEp
        rw [List.filterMap_append, List.filterMap_cons_none hr]
        simp
      rw [this]
      show Ep.DialOk (G ++ a.done ++ a.held) (a.ep.step cfg env op).1
      rw [he]; exact h.ids
    · show ∀ d ∈ a.entries, Agrees (a.ep.step cfg env op).1 d
      rw [he]; exact h.agree
  | @commit id b ev rest b' now hb hev hr hb' =>
    exact h.quiet [(some id, .streamEvent (.payload ev) now)] rfl rfl
      (by intro c hc; rw [List.mem_singleton] at hc; subst hc; simp) rfl ht (.refl _) (keys_old hb _)
  | tweak hb hm => exact h.quiet [] (List.append_nil _).symm rfl (by simp) rfl ht (.refl _) (keys_old hb _)
  | sieve hh =>
    unfold takeDials at ht ⊢
    have hd := h.ids.step h.reach .sieveDials (by simp)
    have he : (Spec.dialsIn (a.ep.step cfg env .sieveDials).2) = Coord.dialsOf a.ep.sieveDials.2 := (dialsOf_eq _).symm
    rw [he] at hd
    refine h.grow .sieveDials ((Coord.dialsOf a.ep.sieveDials.2).map (fromRequest a.ep)) [] ?_ ?_ ht ?_ ?_ ?_ ?_
    · rw [sieve_eq]
    · rw [sieve_eq]; rfl
    · rw [List.append_nil, List.map_map]; exact hd
    · rw [sieve_eq]
      show ([] ++ flat a.parked ++ (a.dials ++ _) ++ a.limbo.toList).Perm (_ ++ (a.dials ++ flat a.parked ++ a.hand ++ a.limbo.toList))
      rw [hh]
      exact ((sieved_perm a.dials _ (flat a.parked)).append_right _).trans (by rw [List.append_assoc])
    · rw [sieve_eq, List.append_nil]
    · intro d hd' i hi
      obtain ⟨x, hx, rfl⟩ := List.mem_map.1 hd'
      have hq : x ∈ Ep.dialQ a.ep := by
        rw [dialsOf_eq] at hx
        unfold Ep.sieveDials at hx
        dsimp only at hx
        rw [Ep.dialOf_filter] at hx
        exact hx
      exact ⟨(h.ids.agree x hq i hi).1, rfl⟩
  | pollDial id peer deadline hp =>
    unfold setTimer at ht ⊢
    have hd := h.ids.step h.reach .pollEvent (by simp)
    have he : (Spec.dialsIn (a.ep.step cfg env .pollEvent).2) = [(id, peer, deadline)] := by
      show Spec.dialsIn (.event a.ep.pollEvent.2) = _
      rw [hp]; rfl
    rw [he] at hd
    have hin : (id, peer, deadline) ∈ Ep.dialQ a.ep := by
      unfold Ep.pollEvent at hp
      split at hp
      · cases hp
      · next ev rest hev =>
        dsimp only at hp
        injection hp with hp
        unfold Ep.dialQ
        rw [hev, hp]
        exact List.mem_filterMap.2 ⟨_, List.mem_cons_self, rfl⟩
    have hnet : a.ep.pollEvent.1.net = a.ep.net := by unfold Ep.pollEvent; split <;> rfl
    refine h.grow .pollEvent [fromRequest a.ep.pollEvent.1 (id, peer, deadline)] [] ?_ ?_ ht ?_ ?_ ?_ ?_
    · rw [queueDial_eq]; rfl
    · rw [queueDial_eq]; rfl
    · exact hd
    · rw [queueDial_eq]
      show (a.dials ++ [_] ++ flat a.parked ++ a.hand ++ a.limbo.toList).Perm ([_] ++ (a.dials ++ flat a.parked ++ a.hand ++ a.limbo.toList))
      simp only [List.append_assoc]
      exact List.perm_append_comm_assoc ..
    · rw [queueDial_eq, List.append_nil]; rfl
    · intro d hd' i hi
      rw [List.mem_singleton] at hd'
      subst hd'
      refine ⟨?_, rfl⟩
      have hi : a.ep.pollEvent.1.net.intents.get? id = some i := hi
      rw [hnet] at hi
      exact (h.ids.agree _ hin i hi).1
  | pollOther _ =>
    exact h.quiet [(none, .pollEvent)] rfl rfl (by intro c hc; rw [List.mem_singleton] at hc; subst hc; simp) rfl ht (.refl _) rfl
  | takeDials hh =>
    refine h.quiet [] (List.append_nil _).symm rfl (by simp) rfl ht ?_ rfl
    show ([] ++ flat a.parked ++ a.dials ++ a.limbo.toList).Perm (a.dials ++ flat a.parked ++ a.hand ++ a.limbo.toList)
    rw [hh, List.append_nil, List.nil_append]
    exact List.perm_append_comm.append_right _
  | takeParked hh =>
    refine h.quiet [] (List.append_nil _).symm rfl (by simp) rfl ht ?_ rfl
    show (a.dials ++ [] ++ (a.takeParked T).hand ++ a.limbo.toList).Perm (a.dials ++ flat a.parked ++ a.hand ++ a.limbo.toList)
    rw [hh, List.append_nil, List.append_nil]
    exact ((taken_perm (T := T) a).append_left _).append_right _
  | popParked peer d rest hh hp =>
    refine h.quiet [] (List.append_nil _).symm rfl (by simp) rfl ht ?_ rfl
    show (a.dials ++ flat (a.parked.insert peer rest) ++ [d] ++ a.limbo.toList).Perm (a.dials ++ flat a.parked ++ a.hand ++ a.limbo.toList)
    refine List.Perm.append_right _ ?_
    rw [hh, List.append_nil, List.append_assoc]
    refine List.Perm.append_left _ ?_
    refine ((flat_insert a.parked hk.np peer rest).append_right _).trans ?_
    refine List.Perm.trans ?_ (flat_erase hk.np hp).symm
    exact List.perm_append_comm
  | dropBucket peer hp =>
    refine h.quiet [] (List.append_nil _).symm rfl (by simp) rfl ht ?_ rfl
    show (a.dials ++ flat (a.parked.erase peer) ++ a.hand ++ a.limbo.toList).Perm (a.dials ++ flat a.parked ++ a.hand ++ a.limbo.toList)
    exact (((flat_erase hk.np hp).symm.append_left _).append_right _).append_right _
  | takeEntry d rest hh hl =>
    rw [takeEntry_eq] at ht ⊢
    refine h.quiet [] (List.append_nil _).symm rfl (by simp) rfl ht ?_ rfl
    show (a.dials ++ flat a.parked ++ a.hand.tail ++ [d]).Perm a.entries
    rw [entries_none hl]
    unfold waiting
    rw [hh, List.tail_cons, List.append_assoc]
    exact (List.perm_append_comm (l₂ := [d])).append_left _
  | repark d now hl =>
    obtain ⟨w, hw⟩ := repark_waiting (X := X) hk d now
    obtain ⟨w2, hw2⟩ := repark_eq (X := X) a d now
    have hl' : (a.repark X d now).limbo = none := by rw [hw2]
    have e1 : (a.repark X d now).entries.Perm ({ d with wake := w, attempted := true } :: a.waiting) := by
      rw [entries_none hl']; exact hw
    refine h.still (by rw [hw2]) (by rw [hw2]) ht [] ?_ ?_
    · rw [List.append_nil]
      unfold held
      rw [show (a.repark X d now).bridges = a.bridges by rw [hw2]]
      refine List.Perm.append_right _ ?_
      rw [entries_some hl]
      refine (e1.map _).trans ?_
      rw [List.map_append]
      exact (List.perm_append_comm (l₂ := [d.id])).symm
    · intro x hx
      rcases List.mem_cons.1 (e1.subset hx) with rfl | hx
      · exact ⟨d, by rw [entries_some hl]; simp, rfl, rfl, rfl⟩
      · exact ⟨x, by rw [entries_some hl]; exact List.mem_append_left _ hx, rfl, rfl, rfl⟩
  | retire d hl =>
    have hr : (a.lastWords d.id).filterMap reportedId = [] ∨ (a.lastWords d.id).filterMap reportedId = [d.id] := by
      unfold lastWords
      split <;> first | exact .inl rfl | exact .inr rfl
    have hq : ∀ c ∈ a.lastWords d.id, ∀ id peer dl, c.2 ≠ Ep.Op.requeueDial id peer dl := by
      intro c hc id peer dl
      unfold lastWords at hc
      rcases List.mem_append.1 hc with hc | hc
      · split at hc
        · cases hc
        · rw [List.mem_singleton] at hc; subst hc; simp
        · cases hc
      · rw [List.mem_singleton] at hc; subst hc; simp
    rw [retire_eq] at ht ⊢
    have he := entries_drop (s' := { a with
      kinds := a.kinds.erase d.id, peers := a.peers.erase d.id, limbo := none
      ep := (a.lastWords d.id).foldl (fun e c => (e.step cfg env c.2).1) a.ep
      calls := a.calls ++ a.lastWords d.id }) hl rfl rfl
    have key : a.held.Perm (d.id :: ({ a with
      kinds := a.kinds.erase d.id, peers := a.peers.erase d.id, limbo := none
      ep := (a.lastWords d.id).foldl (fun e c => (e.step cfg env c.2).1) a.ep
      calls := a.calls ++ a.lastWords d.id } : Quic I Q).held) := by
      unfold held
      rw [he, List.map_append, List.append_assoc]
      exact List.perm_middle
    rcases hr with hr | hr
    · refine h.same _ rfl rfl hq ht [d.id] ?_ (sub_entries he)
      rw [hr, List.nil_append]
      exact (List.perm_append_comm (l₂ := [d.id])).trans key.symm
    · refine h.same _ rfl rfl hq ht [] ?_ (sub_entries he)
      rw [hr, List.append_nil]
      exact key.symm
  | dialLost now peer ch hd hn =>
    cases hl : a.limbo with
    | none =>
      refine h.quiet [] (List.append_nil _).symm rfl (by simp) rfl ht ?_ rfl
      unfold entries
      rw [hl]
      exact .refl _
    | some d =>
      have he := entries_drop (s' := { a with pool := (a.pool.dial Q X.caps now peer).1, limbo := none }) hl rfl rfl
      refine h.still rfl rfl ht [d.id] ?_ (sub_entries he)
      unfold held
      rw [he, List.map_append, List.append_assoc, List.append_assoc]
      exact List.Perm.append_left _ List.perm_append_comm
  | mint d now ch sid e t st hl hd he hc ht' hst =>
    obtain ⟨h1, _, _⟩ := minted_facts hst
    have hdm : d ∈ a.entries := by rw [entries_some hl]; simp
    have hnk : st.id ∉ a.bridges.keys := by rw [h1]; exact h.apart hdm
    generalize hs' : ((({ a with pool := { (a.pool.dial Q X.caps now d.peer).1 with table := t } } : Quic I Q).callEp cfg env
        (some d.id) (.dialSucceeded d.id now)).1.mintDialled cfg X st ch sid) = s' at ht
    have e1 : s'.limbo = none := by rw [← hs']; rfl
    have e2 : s'.waiting = a.waiting := by rw [← hs']; rfl
    have he := entries_drop (s' := s') hl e1 e2
    have e3 : s'.bridges.keys = a.bridges.keys ++ [d.id] := by
      rw [← hs', ← h1]
      exact keys_new hnk _
    refine h.same [(some d.id, .dialSucceeded d.id now)] (by rw [← hs']; rfl) (by rw [← hs']; rfl)
      (by intro c hc; rw [List.mem_singleton] at hc; subst hc; simp) ht [] ?_ (sub_entries he)
    rw [List.append_nil]
    show ([] ++ s'.held).Perm a.held
    rw [List.nil_append]
    unfold held
    rw [he, e3, List.map_append, List.append_assoc]
    exact List.Perm.append_left _ List.perm_append_comm
  | accept ch sid now e st hh hd he hc hst =>
    obtain ⟨h1, _, _, h4, h5⟩ := accepted_facts hst
    have hnk : st.id ∉ a.bridges.keys := by
      rw [h1]; exact fun hm => h.fresh (List.mem_append_right _ hm)
    refine h.grow (.acceptStream e.peer now) [] [st.id] rfl rfl ht ?_ (.refl _) ?_ (by simp)
    · rw [List.map_nil, List.nil_append, h1]
      refine h.ids.fresh (Ep.step_ids h.reach _) ?_ (by rw [h4]; exact Nat.lt_succ_self _)
      unfold Ep.dialQ; rw [h5]
    · exact keys_new hnk _
  | launch op id peer deadline kind hh hl hs _ =>
    obtain ⟨h1, h2, h3, _, i, h5, h6, _, h8⟩ := started_facts hs
    have hd := h.ids.step h.reach op h3
    rw [h2] at hd
    rw [launch_eq] at ht ⊢
    refine h.grow op [{ id, peer, deadline, wake := deadline, attempted := true, kind }] [] rfl rfl ht hd ?_ (List.append_nil _).symm ?_
    · show (a.dials ++ flat a.parked ++ [_] ++ a.limbo.toList).Perm ([_] ++ (a.dials ++ flat a.parked ++ a.hand ++ a.limbo.toList))
      rw [hh, hl, List.append_nil]
      show (a.dials ++ flat a.parked ++ [_] ++ []).Perm ([_] ++ (a.dials ++ flat a.parked ++ []))
      rw [List.append_nil, List.append_nil]
      exact List.perm_append_comm
    · intro d hd' j hj
      rw [List.mem_singleton] at hd'
      subst hd'
      have hj : (a.ep.step cfg env op).1.net.intents.get? id = some j := hj
      rw [h5] at hj
      injection hj with hj
      subst hj
      exact ⟨h6, h8⟩
  | inert peer kind now hn =>
    have key : (a.ep.startPushPullDirect cfg env peer kind now).2.1 = a.ep.net.nextStreamId ∧
        (a.ep.startPushPullDirect cfg env peer kind now).1 = { a.ep with net := { a.ep.net with nextStreamId := a.ep.net.nextStreamId + 1 } } := by
      unfold Ep.startPushPullDirect at hn ⊢
      dsimp only at hn ⊢
      split at hn
      · next hr => rw [if_pos hr]; exact ⟨rfl, rfl⟩
      · cases hn
    obtain ⟨k1, k2⟩ := key
    have hr1 := Ep.reachable_step h.reach (.startPushPullDirect peer kind now)
    have hi1 := Ep.step_ids h.reach (.startPushPullDirect peer kind now)
    have hd1 : Ep.DialOk (G ++ a.done ++ a.held ++ [a.ep.net.nextStreamId]) (a.ep.step cfg env (.startPushPullDirect peer kind now)).1 := by
      refine h.ids.fresh hi1 ?_ ?_
      · show Ep.dialQ (a.ep.startPushPullDirect cfg env peer kind now).1 = _
        rw [k2]; rfl
      · show _ < (a.ep.startPushPullDirect cfg env peer kind now).1.net.nextStreamId
        rw [k2]; exact Nat.lt_succ_self _
    generalize hop : (Ep.Op.external (some ⟨(a.ep.startPushPullDirect cfg env peer kind now).2.1, peer, false, ExKind.pushPull⟩) : Ep.Op I A) = op
    have hd2 := hd1.step hr1 op (by rw [← hop]; simp)
    refine ⟨?_, ht, ?_, ?_⟩
    · have := Ep.reachable_step hr1 op
      rw [← hop] at this; exact this
    · have hd3 := hd2.less (.refl _)
      rw [← hop] at hd3
      refine hd3.perm ?_
      have e1 : ((a.callEp cfg env none (.startPushPullDirect peer kind now)).1.report cfg env
        (a.ep.startPushPullDirect cfg env peer kind now).2.1 peer false .pushPull).done = a.done ++ [a.ep.net.nextStreamId] := by
        show (a.calls ++ [_] ++ [_]).filterMap reportedId = _
        rw [List.filterMap_append, List.filterMap_append, ← k1]
        show a.done ++ [] ++ [_] = _
        rw [List.append_nil]
      rw [e1]
      show (G ++ (a.done ++ [_]) ++ a.held).Perm (G ++ a.done ++ a.held ++ [_])
      simp only [List.append_assoc]
      exact List.Perm.append_left _ (List.Perm.append_left _ List.perm_append_comm)
    · intro d hd'
      have hd' : d ∈ a.entries := hd'
      have g1 := (h.agree d hd').step hi1 (h.lt (entry_held hd')) rfl rfl rfl
      have g2 := g1.step (Ep.step_ids hr1 op) (Nat.lt_of_lt_of_le (h.lt (entry_held hd')) hi1.mono) rfl rfl rfl
      rw [← hop] at g2
      exact g2
  | burn pid peer seq deadline hn =>
    exact h.quiet [(none, .startReliablePingDirect pid peer seq deadline)] rfl rfl
      (by intro c hc; rw [List.mem_singleton] at hc; subst hc; simp) rfl ht (.refl _) rfl
  | reap id ch b lost hb hbt _ hl =>
    have hap := reapBridge_apart (cfg := cfg) (env := env) a id b ch lost
    obtain ⟨r1, r2, r3, r4, r5, r6, _⟩ := preReap_rest (X := X) a id b ch lost
    have hent : (a.reapBridge cfg env id b ch lost).entries = a.entries := by
      unfold entries waiting
      rw [hap.dials, hap.parked, hap.hand, hap.limbo]
    have hkeys : (a.reapBridge cfg env id b ch lost).bridges.keys = (a.bridges.erase id).keys := by
      rw [reapBridge_pre]
      rcases complete_cases (cfg := cfg) (env := env) (a.preReap id b ch lost) id (!b.isFailed) with ⟨_, h2⟩ | ⟨k, _, _, h2⟩ | ⟨k, p, _, _, h2⟩ <;> rw [h2] <;> exact r5
    have key : a.held.Perm (id :: (a.reapBridge cfg env id b ch lost).held) := by
      unfold held
      rw [hent, hkeys]
      refine ((keys_drop h.bridges_nodup hb).append_left _).trans ?_
      exact List.perm_middle
    have hin := entries_same (s := a) (s' := a.reapBridge cfg env id b ch lost) (by rw [hent])
    have quiet : (a.reapBridge cfg env id b ch lost).calls = a.calls → (a.reapBridge cfg env id b ch lost).ep = a.ep →
        IdsInv cfg env X G (a.reapBridge cfg env id b ch lost) := fun g1 g2 =>
      h.still g1 g2 ht [id] ((List.perm_append_comm (l₂ := [id])).trans key.symm) hin
    rcases complete_cases (cfg := cfg) (env := env) (a.preReap id b ch lost) id (!b.isFailed) with ⟨_, h2⟩ | ⟨k, _, _, h2⟩ | ⟨k, p, _, _, h2⟩
    · exact quiet (by rw [reapBridge_pre, h2]; exact r4) (by rw [reapBridge_pre, h2]; exact r3)
    · exact quiet (by rw [reapBridge_pre, h2]; exact r4) (by rw [reapBridge_pre, h2]; exact r3)
    · refine h.same [(some id, .external (some ⟨id, p, !b.isFailed, k⟩))] ?_ ?_ ?_ ht [] ?_ hin
      · rw [reapBridge_pre, h2]; show (a.preReap id b ch lost).calls ++ _ = _; rw [r4]
      · rw [reapBridge_pre, h2]; show ((a.preReap id b ch lost).ep.step cfg env _).1 = _; rw [r3]; rfl
      · intro c hc; rw [List.mem_singleton] at hc; subst hc; simp
      · rw [List.append_nil]; exact key.symm
  | _ => exact h.quiet [] (List.append_nil _).symm rfl (by simp) rfl ht (.refl _) rfl

end Verif.Quic
