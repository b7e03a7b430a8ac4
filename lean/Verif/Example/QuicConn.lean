import Verif.Spec.QuicConn
/-! A small `quinn`, for the examples: a connection is a number (0 handshaking, 1 established, 2 closed,
3 drained) and the second byte of a datagram says what it does. -/
namespace Verif.Ex

theorem foldl_max_lt (l : List Nat) : ∀ (a : Nat), a ≤ l.foldl max a ∧ ∀ x ∈ l, x ≤ l.foldl max a := by
  induction l with
  | nil => intro a; simp
  | cons y l ih =>
    intro a
    obtain ⟨h1, h2⟩ := ih (max a y)
    rw [List.foldl_cons]
    refine ⟨by omega, ?_⟩
    intro x hx
    rcases List.mem_cons.1 hx with rfl | hx
    · omega
    · exact h2 x hx

/-- The example `quinn`. -/
def quinn : Quinn Nat where
  E := Nat
  C := Nat
  V := Nat
  W := Unit
  N := Nat
  fuel := 8
  vacant l := l.foldl max 0 + 1
  vacant_fresh l h := by have := (foldl_max_lt l 0).2 _ h; omega
  closed c := decide (2 ≤ c)
  handshaking c := c == 0
  drained c := c == 3
  connect e _ p := (e + 1, if p = 99 then none else some 0)
  handle e _ src b := match b with
    | 0xC0 :: _ => (e + 1, some (.incoming src))
    | 0x40 :: ch :: v :: _ => (e, some (.event ch.toNat v.toNat))
    | _ => (e, some (.response src [0x40]))
  accept e _ _ := (e + 1, .ok 0)
  ignore e _ := e
  endpointEvent e _ _ := (e, none)
  forget e _ := e + 1
  event _ v := v
  timeout c _ := c
  poll c := (c, none)
  pollEndpoint c := (c, none)
  recvDgram c := (c, none)
  dgramMax _ := some 1200
  sendDgram c _ := (c, .ok)
  transmit c _ := (c, none)
  pollTimeout _ := none
  openBi c := (c, if c = 1 then some 0 else none)
  openUni c := (c, false)
  acceptBi c := (c, none)
  close c _ := if c = 3 then 3 else 2
  abandon c _ := c
  readStart c _ := (c, .ok)
  readNext c _ := (c, .blocked)
  readEnd c _ := c
  write c _ b := (c, .wrote b.length)
  finish c _ := c

/-- Two arrivals from source 7 (the second is over its cap of one), one of them established, one dial. -/
def poolOps : List (PoolOp quinn) :=
  [.datagram 1 7 [0xC0], .datagram 1 7 [0xC0], .datagram 2 7 [0x40, 1, 1], .reconcile 1,
   .datagram 3 7 [0xC0], .dial 4 5, .use 3 (fun _ => (1 : Nat)), .datagram 5 5 [0x40, 3, 2], .dial 6 5]

def poolCaps : QCaps := ⟨some 4, some 1⟩

end Verif.Ex
