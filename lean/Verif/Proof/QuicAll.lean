import Verif.Proof.QuicLift3
import Verif.Proof.QuicCount
/-
The invariants of the QUIC node together, over every history of calls.
-/
namespace Verif.Quic
open Verif Map QBridge
variable {I A : Type} [DecidableEq I] [DecidableEq A] {Q : Quinn A}
variable {cfg : Cfg I A} {env : Env I A} {X : QCfg} {T : TEnv}

structure NodeInv (cfg : Cfg I A) (env : Env I A) (X : QCfg) (s : Quic I Q) : Prop where
  ring : RingInv s
  books : BooksInv s
  ids : IdsInv cfg env X [] s
  held : HeldInv s
  place : PlaceInv s
  count : CountInv X s
  signed : Signed s

theorem NodeInv.move (hS : Q.Sound) {a b : Quic I Q} (h : NodeInv cfg env X a) (hm : Move cfg env X T a b) :
    NodeInv cfg env X b :=
  ⟨h.ring.move hm, h.books.move hm, h.ids.move h.books hm, h.held.move h.ids h.books hm,
   h.place.move hS h.ids h.held hm, h.count.move hS h.place h.ids h.held hm, h.signed.move hm⟩

theorem NodeInv.moves (hS : Q.Sound) {a b : Quic I Q} (h : NodeInv cfg env X a) (hm : Moves cfg env X T a b) :
    NodeInv cfg env X b := hm.inv (fun _ _ h hm => h.move hS hm) h

/-- Only the queue of received datagrams changed. -/
theorem NodeInv.queue {s s' : Quic I Q} (h : NodeInv cfg env X s) (hr : RingInv s')
    (hs : ∃ ring ingress perPeer, s' = { s with ring := ring, ingress := ingress, perPeer := perPeer }) :
    NodeInv cfg env X s' := by
  obtain ⟨ring, ingress, perPeer, rfl⟩ := hs
  exact ⟨hr, h.books.same rfl rfl rfl rfl rfl, ⟨h.ids.reach, h.ids.table, h.ids.ids, h.ids.agree⟩,
    h.held.quiet rfl rfl (.refl _) rfl, h.place.still rfl rfl rfl rfl rfl rfl rfl, h.count.still rfl rfl rfl rfl,
    h.signed.still rfl⟩

theorem NodeInv.pull {s : Quic I Q} (h : NodeInv cfg env X s) : NodeInv cfg env X s.pollIngress.1 := by
  refine h.queue h.ring.pull ?_
  unfold pollIngress
  split <;> exact ⟨_, _, _, rfl⟩

theorem NodeInv.wipe {s : Quic I Q} (h : NodeInv cfg env X s) (ring : Option Keyring) :
    NodeInv cfg env X { s with ring := ring, ingress := [], perPeer := [] } :=
  h.queue ⟨Counted.nil (fun _ => rfl), fun _ => Nat.zero_le _, Nat.zero_le _⟩ ⟨_, _, _, rfl⟩

theorem NodeInv.new {t0 : Nat} {e0 : Ep I A} (hnew : Ep.tryNew cfg env t0 = .ok e0) (q : Q.E) (cmp : CmpOptions) :
    NodeInv cfg env X (Quic.new e0 q cmp : Quic I Q) where
  ring := ⟨Counted.nil (fun _ => rfl), fun _ => Nat.zero_le _, Nat.zero_le _⟩
  books := ⟨Counted.nil (fun _ => rfl), rfl, List.nodup_nil, by intro p l h; cases h⟩
  ids := ⟨⟨t0, e0, [], hnew, rfl⟩, TableInv.init, Ep.dialOk_new hnew, by intro d h; cases h⟩
  held := ⟨fun _ => rfl, by (intro d h; cases h), by (intro id b h; cases h), by (intro id h; cases h)⟩
  place := ⟨rfl, by (intro ch l h; cases h), by (intro id b h; cases h), List.nodup_nil, by (intro id h; cases h),
    by (intro id h; cases h), by (intro ch sid id h; cases h), by (intro id b h; cases h), by (intro ch e h; cases h)⟩
  count := ⟨by (intro x h; cases h), rfl, by (intro ch e h; cases h), fun _ => Nat.zero_le _, fun _ _ => Nat.zero_le _⟩
  signed := by intro c h; cases h

/-- The invariants hold at every call boundary. -/
theorem node_from (hS : Q.Sound) {s : Quic I Q} (hi : Idle s) (h : NodeInv cfg env X s) (ops : List (QOp I A)) :
    NodeInv cfg env X (s.run cfg env X T ops) ∧ Idle (s.run cfg env X T ops) :=
  run_inv hS (fun _ _ h hm => h.move hS hm) (fun _ h => h.pull) (fun _ ring h => h.wipe ring) ops hi h

theorem node_run (hS : Q.Sound) {t0 : Nat} {e0 : Ep I A} (hnew : Ep.tryNew cfg env t0 = .ok e0) (q : Q.E) (cmp : CmpOptions)
    (ops : List (QOp I A)) : NodeInv cfg env X ((Quic.new e0 q cmp : Quic I Q).run cfg env X T ops) ∧
      Idle ((Quic.new e0 q cmp : Quic I Q).run cfg env X T ops) :=
  node_from hS (new_idle e0 q cmp) (.new hnew q cmp) ops

theorem run_append (s : Quic I Q) (ops ops2 : List (QOp I A)) :
    s.run cfg env X T (ops ++ ops2) = (s.run cfg env X T ops).run cfg env X T ops2 := by
  unfold run; exact List.foldl_append

/-! ### The queue of received datagrams -/

/-- Within a call the queue only grows, at its end. -/
theorem Move.feeds {a b : Quic I Q} (hm : Move cfg env X T a b) : ∃ l, b.ingress = a.ingress ++ l := by
  have z : ∀ {x : Quic I Q}, x.ingress = a.ingress → ∃ l, x.ingress = a.ingress ++ l :=
    fun h => ⟨[], by rw [h, List.append_nil]⟩
  cases hm with
  | push src bytes =>
    unfold pushIngress
    split
    · exact z rfl
    · exact ⟨_, rfl⟩
  | sieve _ => rw [sieve_eq]; exact z rfl
  | pollDial id peer deadline h => rw [queueDial_eq]; exact z rfl
  | takeEntry d rest _ _ => rw [takeEntry_eq]; exact z rfl
  | repark d now hl =>
    obtain ⟨w2, hw2⟩ := repark_eq (X := X) a d now
    rw [hw2]; exact z rfl
  | retire d hl => rw [retire_eq]; exact z rfl
  | launch op x peer deadline kind hh' hl hs _ => rw [launch_eq]; exact z rfl
  | reap id ch b lost hb ht _ hl => exact z (reapBridge_apart ..).ingress
  | _ => exact z rfl

theorem Moves.feeds {a b : Quic I Q} (hm : Moves cfg env X T a b) : ∃ l, b.ingress = a.ingress ++ l := by
  induction hm with
  | refl => exact ⟨[], (List.append_nil _).symm⟩
  | snoc _ h ih =>
    obtain ⟨l, hl⟩ := ih
    obtain ⟨l2, hl2⟩ := h.feeds
    exact ⟨l ++ l2, by rw [hl2, hl, List.append_assoc]⟩

end Verif.Quic
