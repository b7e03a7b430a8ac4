import Verif.Model.Quic
import Verif.Example.QuicConn
import Verif.Example.Coord
/-! Two concrete QUIC nodes for the examples: node 0 joins through node 1. `wireQuinn` is a small `quinn` whose
connections keep what was written on them; a datagram `0x40 :: ch :: what :: rest` is an event for connection `ch`. -/
namespace Verif.Ex
open Verif Quic

/-- A connection: 0 handshaking, 1 established, 2 closed, 3 drained. -/
structure Wire where
  state : Nat := 0
  evs : List ConnEv := []
  inc : List Nat := []
  next : Nat := 0
  rx : List (Nat × ReadNext) := []
  tx : List (Nat × Bytes) := []
  dgrams : List Bytes := []

/-- What an event does to a connection. -/
def Wire.event (c : Wire) : UInt8 × Bytes → Wire
  | (0, n :: _) => { c with state := n.toNat }
  | (1, sid :: _) => { c with inc := c.inc ++ [sid.toNat], evs := c.evs ++ [.opened] }
  | (2, sid :: b) => { c with rx := c.rx ++ [(sid.toNat, .chunk b)], evs := c.evs ++ [.readable sid.toNat] }
  | (3, sid :: _) => { c with rx := c.rx ++ [(sid.toNat, .fin)], evs := c.evs ++ [.readable sid.toNat] }
  | (4, b) => { c with dgrams := c.dgrams ++ [b] }
  | (5, _) => { c with state := 3, evs := c.evs ++ [.lost] }
  | (6, sid :: _) => { c with evs := c.evs ++ [.finished sid.toNat] }
  | (7, sid :: b) => { c with state := 1, rx := c.rx ++ [(sid.toNat, .chunk b)], evs := c.evs ++ [.readable sid.toNat, .available] }
  | _ => c

def Wire.read (c : Wire) (sid : Nat) : Wire × ReadNext :=
  match c.rx.find? (fun e => e.1 = sid) with
  | none => (c, .blocked)
  | some e => ({ c with rx := c.rx.eraseP (fun e => e.1 = sid) }, e.2)

def wireQuinn : Quinn Nat where
  E := Nat
  C := Wire
  V := UInt8 × Bytes
  W := Unit
  N := Nat
  fuel := 8
  vacant l := l.foldl max 0 + 1
  vacant_fresh l h := by have := (foldl_max_lt l 0).2 _ h; omega
  closed c := decide (2 ≤ c.state)
  handshaking c := c.state == 0
  drained c := c.state == 3
  connect e _ p := (e + 1, if p = 99 then none else some {})
  handle e _ src b := match b with
    | 0xC0 :: _ => (e + 1, some (.incoming src))
    | 0x40 :: ch :: v :: rest => (e, some (.event ch.toNat (v, rest)))
    | _ => (e, some (.response src [0x40]))
  accept e _ _ := (e + 1, .ok { next := 1 })
  ignore e _ := e
  endpointEvent e _ _ := (e, none)
  forget e _ := e + 1
  event c v := c.event v
  timeout c _ := c
  poll c := ({ c with evs := c.evs.tail }, c.evs.head?)
  pollEndpoint c := (c, none)
  recvDgram c := ({ c with dgrams := c.dgrams.tail }, c.dgrams.head?)
  dgramMax _ := some 1200
  sendDgram c _ := (c, .ok)
  transmit c _ := (c, none)
  pollTimeout _ := none
  openBi c := if c.state = 1 then ({ c with next := c.next + 4 }, some c.next) else (c, none)
  openUni c := (c, false)
  acceptBi c := ({ c with inc := c.inc.tail }, c.inc.head?)
  close c _ := if c.state = 3 then c else { c with state := 2 }
  abandon c _ := c
  readStart c _ := (c, .ok)
  readNext c sid := c.read sid
  readEnd c _ := c
  write c sid b := ({ c with tx := c.tx ++ [(sid, b)] }, .wrote b.length)
  finish c _ := c

theorem wireQuinn_sound : wireQuinn.Sound where
  drained_closed c h := by
    have h : (c.state == 3) = true := h
    have : c.state = 3 := by simpa using h
    show decide (2 ≤ c.state) = true
    simp [this]
  open_closed c h := by
    have h : decide (2 ≤ c.state) = true := h
    have h : 2 ≤ c.state := by simpa using h
    show (if c.state = 1 then (({ c with next := c.next + 4 } : Wire), some c.next) else (c, none)).2 = none
    rw [if_neg (by omega)]
  poll _ := rfl
  pollEndpoint _ := rfl
  recvDgram _ := rfl
  sendDgram _ _ := rfl
  transmit _ _ := rfl
  openBi c := by
    show wireQuinn.drained (if c.state = 1 then (({ c with next := c.next + 4 } : Wire), some c.next) else (c, none)).1 = _
    split <;> rfl
  openUni _ := rfl
  acceptBi _ := rfl
  close c now := by
    have key : ∀ w : Wire, ((if w.state = 3 then w else ({ w with state := 2 } : Wire)).state == 3) = (w.state == 3) := by
      intro w
      by_cases h : w.state = 3
      · rw [if_pos h]
      · rw [if_neg h]; simp [h]
    exact key c
  abandon _ _ := rfl
  readStart _ _ := rfl
  readNext c sid := by
    show wireQuinn.drained (c.read sid).1 = _
    unfold Wire.read
    split <;> rfl
  readEnd _ _ := rfl
  write _ _ _ := rfl
  finish _ _ := rfl

def QX0 : QCfg where
  caps := poolCaps
  maxInbound := some 1
  maxUserDials := 2
  exemptPops := 4
  catchup := 5 * MS
  margin := 100 * MS
  label := some [97, 98]
  skipLabel := false

/-- Node 0 and node 1. -/
def q0 : Quic Nat wireQuinn := Quic.new Ex.e0 (0 : Nat) cmp0
def q1 : Quic Nat wireQuinn := Quic.new e1 (0 : Nat) cmp0

/-- What was written on connection `ch` of a node. -/
def written (s : Quic Nat wireQuinn) (ch : Nat) : Bytes :=
  match s.pool.table.conns.get? ch with
  | some e => e.conn.tx.flatMap Prod.snd
  | none => []

/-- Node 0 dials node 1; the connection comes up. -/
def qDialOps : List (Quic.QOp Nat Nat) := [.startPushPull 101 .join 5, .udp 101 [0x40, 1, 0, 1] 6]

/-- What node 0 wrote. -/
def qWire : Bytes := written (q0.run cfg env QX0 T0 qDialOps) 1

/-- Node 1 accepts the connection and the stream and receives the request in two pieces. -/
def qAcceptOps : List (Quic.QOp Nat Nat) :=
  [.udp 100 [0xC0] 6, .udp 100 [0x40, 1, 0, 1] 7, .udp 100 [0x40, 1, 1, 0] 7,
   .udp 100 (0x40 :: 1 :: 2 :: 0 :: qWire.take 3) 7, .udp 100 (0x40 :: 1 :: 2 :: 0 :: qWire.drop 3) 8,
   .udp 100 [0x40, 1, 3, 0] 8]

/-- What node 1 wrote back. -/
def qAnswer : Bytes := written (q1.run cfg1 env QX0 T0 qAcceptOps) 1

/-- Node 0 receives the answer, and the acknowledgement of its own half. -/
def qJoinOps : List (Quic.QOp Nat Nat) :=
  qDialOps ++ [.udp 101 (0x40 :: 1 :: 2 :: 0 :: qAnswer) 9, .udp 101 [0x40, 1, 3, 0] 9, .udp 101 [0x40, 1, 6, 0] 9]

/-- Node 0 asks for more exchanges than one call serves; then the connection comes up. -/
def qManyOps : List (Quic.QOp Nat Nat) := List.replicate 66 (.startPushPull 101 .join 5) ++ [.udp 101 [0x40, 1, 0, 1] 6]

/-- The same with an exchange already under way, for which bytes arrive when the connection comes up. -/
def qBusyOps : List (Quic.QOp Nat Nat) :=
  qDialOps ++ .udp 101 [0x40, 1, 0, 0] 6 :: List.replicate 66 (.startPushPull 101 .join 6) ++ [.udp 101 [0x40, 1, 7, 0] 7]

end Verif.Ex
