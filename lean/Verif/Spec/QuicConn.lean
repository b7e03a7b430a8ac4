import Verif.Model.QuicConn
/-! Specification of the connections of the QUIC node: histories, and what is counted. -/
namespace Verif

variable {A : Type} [DecidableEq A] (Q : Quinn A)

/-- Anything that can happen to the connections of a node. `use` is any call on one of them (they all go
through `conn_mut`). -/
inductive PoolOp (Q : Quinn A) where
  | datagram (now : Nat) (src : A) (bytes : Bytes)
  | dial (now : Nat) (peer : A)
  | use (ch : Nat) (f : Q.C → Q.C)
  | reconcile (ch : Nat)
  | reap (ch : Nat)

namespace Pool

def step (caps : QCaps) (p : Pool Q) : PoolOp Q → Pool Q
  | .datagram now src bytes => (p.datagram Q caps now src bytes).1
  | .dial now peer => (p.dial Q caps now peer).1
  | .use ch f => { p with table := (p.table.on Q ch (fun e => e.via Q (fun c => (f c, ())))).1 }
  | .reconcile ch => { p with table := p.table.reconcile Q ch }
  | .reap ch => let r := p.table.reapIfDrained Q p.quinn ch; { p with table := r.1, quinn := r.2.1 }

/-- The connections of a node after a history, from a fresh node. -/
def after (caps : QCaps) (q : Q.E) (ops : List (PoolOp Q)) : Pool Q := ops.foldl (step Q caps) { quinn := q }

omit [DecidableEq A] in
/-- The connections a node holds: handle, peer, and whether the peer opened it. -/
def holds (p : Pool Q) : List (Nat × A × Bool) := p.table.conns.map (fun x => (x.1, x.2.peer, x.2.inbound))

/-- How many connections opened by `src` have never been seen established. -/
def halfOpen (p : Pool Q) (src : A) : Nat :=
  (p.table.conns.filter (fun x => x.2.inbound && !x.2.established && decide (x.2.peer = src))).length

/-- The connection new streams to `peer` would ride. -/
def routeTo (p : Pool Q) (peer : A) : Option Nat := p.table.peers.get? peer

/-- The connection with this handle. -/
def conn? (p : Pool Q) (ch : Nat) : Option Q.C := (p.table.conns.get? ch).map (·.conn)

end Pool
end Verif
