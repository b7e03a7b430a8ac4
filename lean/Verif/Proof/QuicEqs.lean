import Verif.Proof.QuicLift3
/-
The moves of the QUIC node field by field.
-/
namespace Verif.Quic
open Verif Map QBridge
variable {I A : Type} [DecidableEq I] [DecidableEq A] {Q : Quinn A}
variable {cfg : Cfg I A} {env : Env I A} {X : QCfg} {T : TEnv}

omit [DecidableEq I] in
theorem noteUp_eq (s : Quic I Q) (p : A) (k : ExKind) :
    s.noteUp p k = { s with backlog := if k = .userMessage then bump s.backlog p else s.backlog } := by
  unfold noteUp; split <;> rfl

omit [DecidableEq I] in
theorem noteDown_eq (s : Quic I Q) (p : A) (k : ExKind) :
    s.noteDown p k = { s with backlog := if k = .userMessage then ConnTable.release s.backlog p else s.backlog } := by
  unfold noteDown; split <;> rfl

omit [DecidableEq I] in
theorem queueDial_eq (s : Quic I Q) (d : QDial A) :
    s.queueDial d = { s with
      dials := s.dials ++ [d], unattempted := s.unattempted + 1
      backlog := if d.kind = .userMessage then bump s.backlog d.peer else s.backlog } := by
  unfold queueDial; rw [noteUp_eq]

omit [DecidableEq I] in
theorem takeEntry_eq (s : Quic I Q) (d : QDial A) :
    s.takeEntry d = { s with
      unattempted := if d.attempted then s.unattempted else s.unattempted - 1
      backlog := if d.kind = .userMessage then ConnTable.release s.backlog d.peer else s.backlog
      index := s.index.set (.dial d.id) none, hand := s.hand.tail, limbo := some d } := by
  unfold takeEntry; simp only [noteDown_eq, setTimer]; split <;> rfl

/-- The dials that wait for a peer. -/
def bucketOf (s : Quic I Q) (p : A) : List (QDial A) := match s.parked.get? p with | some l => l | none => []

omit [DecidableEq I] in
theorem repark_eq (s : Quic I Q) (d : QDial A) (now : Nat) :
    ∃ w, s.repark X d now = { s with
      index := s.index.set (.dial d.id) (some w)
      parked := s.parked.insert d.peer (if d.kind = ExKind.reliablePing then
        { d with wake := w, attempted := true } :: s.bucketOf d.peer
        else s.bucketOf d.peer ++ [{ d with wake := w, attempted := true }])
      limbo := none
      backlog := if d.kind = .userMessage then bump s.backlog d.peer else s.backlog } := by
  refine ⟨dialWake X d.deadline now, ?_⟩
  unfold repark; rw [noteUp_eq]; rfl

/-- The calls a retired dial makes. -/
def lastWords (s : Quic I Q) (id : Nat) : List (Option Nat × Ep.Op I A) :=
  (match s.kinds.get? id, s.peers.get? id with
    | some .reliablePing, _ => []
    | some k, some p => [(some id, .external (some ⟨id, p, false, k⟩))]
    | _, _ => []) ++ [(some id, .dialFailed id)]

theorem retire_eq (s : Quic I Q) (id : Nat) :
    s.retire cfg env id = { s with
      kinds := s.kinds.erase id, peers := s.peers.erase id, limbo := none
      ep := (s.lastWords id).foldl (fun e c => (e.step cfg env c.2).1) s.ep
      calls := s.calls ++ s.lastWords id } := by
  unfold retire lastWords
  dsimp only [callEp, report]
  cases hk : s.kinds.get? id with
  | none => cases hp : s.peers.get? id <;> rfl
  | some k => cases hp : s.peers.get? id <;> cases k <;> simp

theorem launch_eq (s : Quic I Q) (id : Nat) (peer : A) (deadline : Nat) (kind : ExKind) :
    s.launch id peer deadline kind = { s with
      kinds := s.kinds.insert id kind, peers := s.peers.insert id peer
      hand := [{ id, peer, deadline, wake := deadline, attempted := true, kind }]
      backlog := if kind = .userMessage then bump s.backlog peer else s.backlog } := by
  unfold launch; rw [noteUp_eq]

/-- The backlog after more dials wait. -/
def bumps (m : Map A Nat) (l : List (QDial A)) : Map A Nat :=
  l.foldl (fun m d => if d.kind = .userMessage then bump m d.peer else m) m

omit [DecidableEq I] in
theorem queueAll_eq (l : List (QDial A)) : ∀ (s : Quic I Q), l.foldl queueDial s = { s with
    dials := s.dials ++ l, unattempted := s.unattempted + l.length, backlog := bumps s.backlog l } := by
  induction l with
  | nil => intro s; simp [bumps]
  | cons d l ih =>
    intro s
    rw [List.foldl_cons, ih, queueDial_eq]
    simp [bumps, Nat.add_assoc, Nat.add_comm 1]

theorem sieve_eq (s : Quic I Q) : s.sieve cfg env = { s with
    ep := s.ep.sieveDials.1, calls := s.calls ++ [(none, .sieveDials)]
    dials := s.dials ++ (Coord.dialsOf s.ep.sieveDials.2).map (fromRequest s.ep)
    unattempted := s.unattempted + ((Coord.dialsOf s.ep.sieveDials.2).map (fromRequest s.ep)).length
    backlog := bumps s.backlog ((Coord.dialsOf s.ep.sieveDials.2).map (fromRequest s.ep)) } := by
  unfold sieve
  rw [queueAll_eq]
  rfl

/-- The report of an exchange that is done. -/
def verdict (s : Quic I Q) (id : Nat) (ok : Bool) : List (Option Nat × Ep.Op I A) :=
  match s.kinds.get? id, s.peers.get? id with
  | some k, some p => [(some id, .external (some ⟨id, p, ok, k⟩))]
  | _, _ => []

theorem complete_eq (s : Quic I Q) (id : Nat) (ok : Bool) (hs : (s.kinds.get? id).isSome = (s.peers.get? id).isSome) :
    s.complete cfg env id ok = { s with
      kinds := s.kinds.erase id, peers := s.peers.erase id
      ep := (s.verdict id ok).foldl (fun e c => (e.step cfg env c.2).1) s.ep
      calls := s.calls ++ s.verdict id ok } := by
  have er : ∀ {V : Type} (m : Map Nat V), m.get? id = none → m.erase id = m := by
    intro V m h
    unfold Map.erase
    rw [List.filter_eq_self]
    intro x hx
    have := get?_eq_none_iff.1 h
    simp only [ne_eq, decide_not, Bool.not_eq_eq_eq_not, Bool.not_true, decide_eq_false_iff_not]
    rintro rfl
    exact this (mem_keys.2 ⟨_, hx⟩)
  unfold complete verdict
  cases hk : s.kinds.get? id with
  | none =>
    rw [hk] at hs
    cases hp : s.peers.get? id with
    | none => simp [er _ hk, er _ hp]
    | some p => rw [hp] at hs; cases hs
  | some k =>
    rw [hk] at hs
    cases hp : s.peers.get? id with
    | none => rw [hp] at hs; cases hs
    | some p => rfl

/-- What the end of a bridge leaves alone. -/
structure Apart (s s' : Quic I Q) : Prop where
  ingress : s'.ingress = s.ingress
  perPeer : s'.perPeer = s.perPeer
  dials : s'.dials = s.dials
  parked : s'.parked = s.parked
  hand : s'.hand = s.hand
  limbo : s'.limbo = s.limbo
  backlog : s'.backlog = s.backlog
  unattempted : s'.unattempted = s.unattempted

theorem Apart.refl (s : Quic I Q) : Apart s s := ⟨rfl, rfl, rfl, rfl, rfl, rfl, rfl, rfl⟩
theorem Apart.trans {a b c : Quic I Q} (h : Apart a b) (h2 : Apart b c) : Apart a c :=
  ⟨h2.1.trans h.1, h2.2.trans h.2, h2.3.trans h.3, h2.4.trans h.4, h2.5.trans h.5, h2.6.trans h.6, h2.7.trans h.7, h2.8.trans h.8⟩

theorem complete_apart (s : Quic I Q) (id : Nat) (ok : Bool) : Apart s (s.complete cfg env id ok) := by
  unfold complete
  split
  · exact .refl s
  · split <;> exact ⟨rfl, rfl, rfl, rfl, rfl, rfl, rfl, rfl⟩

theorem freeSlot_apart (s : Quic I Q) (ch : Nat) : Apart s (s.freeSlot ch) := by
  unfold freeSlot
  split <;> exact ⟨rfl, rfl, rfl, rfl, rfl, rfl, rfl, rfl⟩

theorem unslot_apart (s : Quic I Q) (ch slot : Nat) : Apart s (s.unslot ch slot) := by
  unfold unslot
  split
  · exact .refl s
  · dsimp only; split <;> exact ⟨rfl, rfl, rfl, rfl, rfl, rfl, rfl, rfl⟩

theorem reapBridge_apart (s : Quic I Q) (id : Nat) (b : QBridge I A) (ch : Nat) (lost : Bool) :
    Apart s (s.reapBridge cfg env id b ch lost) := by
  unfold reapBridge
  dsimp only
  have h1 : Apart s (s.unindex id ch b.sid) := ⟨rfl, rfl, rfl, rfl, rfl, rfl, rfl, rfl⟩
  have h2 : Apart s (if lost then { s.unindex id ch b.sid with doom := (s.unindex id ch b.sid).doom.tail }
      else (s.unindex id ch b.sid).unslot ch b.slot) := by
    split
    · exact ⟨rfl, rfl, rfl, rfl, rfl, rfl, rfl, rfl⟩
    · exact h1.trans (unslot_apart _ _ _)
  refine Apart.trans ?_ (complete_apart _ _ _)
  split
  · exact h2.trans (freeSlot_apart _ _)
  · exact h2

end Verif.Quic
