import Verif.Model.Embassy

/-!
What C112 to C115 speak about: the history of one socket of the embassy driver's pool.
-/

namespace Verif.Embassy

variable {A : Type}

/-- A new connection starts when the driver asks the socket to accept or to connect. -/
def Obs.begins : Obs A → Bool
  | .accept _ => true
  | .connect _ => true
  | _ => false

/-- The part of a history that belongs to the latest connection. -/
def latest (t : List (Obs A)) : List (Obs A) := (t.reverse.takeWhile fun o => !o.begins).reverse

/-- The bytes the socket has received. -/
def received (t : List (Obs A)) : Bytes := t.flatMap fun | .read b => b | _ => []

/-- The bytes the engine was given. -/
def handed (t : List (Obs A)) : Bytes := t.flatMap fun | .handed b => b | _ => []

/-- The bytes the engine's `send` has accepted. -/
def accepted (t : List (Obs A)) : Bytes := t.flatMap fun | .accepted b => b | _ => []

/-- The bytes the socket was given to transmit. -/
def transmitted (t : List (Obs A)) : Bytes := t.flatMap fun | .wrote b => b | _ => []

/-- The socket reports the end of what the peer sends. -/
def Obs.isFin : Obs A → Bool
  | .fin => true
  | _ => false

/-- A slot as it may be after any history: `t` is what has been seen of it since it was created. -/
def Reaches (inCap outCap : Nat) (t : List (Obs A)) (s : Slot A) : Prop :=
  ∃ es, (Slot.new A inCap outCap).runs es = some (s, t)

/-- The worker is waiting for its command wake, alone or beside a socket operation. -/
def Pc.waits : Pc A → Bool
  | .idle | .accepting _ | .dialing _ | .parked _ _ | .reading _ _ _ => true
  | _ => false

/-- There is something the engine wants of a worker that it has not begun: a command, or bytes to send as
long as its half of the connection is not finished; or it had stopped reading for want of room, and there is
room again. -/
def Slot.wanted (s : Slot A) : Prop :=
  match s.pc with
  | .idle => s.mail.command ≠ .idle
  | .accepting p => s.mail.command ≠ .listen p
  | .dialing r => s.mail.command ≠ .dial r
  | .parked we peer =>
    s.mail.command = .abort ∨ (we = false ∧ s.mail.command = .close) ∨ (we = false ∧ s.mail.outbound ≠ []) ∨
      (peer = false ∧ s.mail.inbound.length < s.mail.inCap)
  | .reading _ we _ =>
    s.mail.command = .abort ∨ (we = false ∧ s.mail.command = .close) ∨ (we = false ∧ s.mail.outbound ≠ [])
  | _ => False

/-- The calls a driver makes on its socket, of all that may be seen. -/
def Obs.socketCall : Obs A → Bool
  | .accept _ | .connect _ | .close | .abort => true
  | _ => false

/-- The engine gives no command. -/
def Ev.silent : Ev A → Bool
  | .engine (.recv _) | .engine (.send _) | .worker _ => true
  | _ => false

/-- The engine only takes received bytes. -/
def Ev.passive : Ev A → Bool
  | .engine (.recv _) | .worker _ => true
  | _ => false

end Verif.Embassy
