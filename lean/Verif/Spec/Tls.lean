import Verif.Model.Tls
/-
What the properties of the TLS record layer and of the exchanges on top of it talk about.
-/
namespace Verif.Spec
variable {C : Type}

/-- How one thing that happens changes the plaintext that is still unsent to the peer. -/
def unsentStep (o : Bytes) : TlsEv C → Bytes
  | .staged bs => o ++ bs
  | .cleared => []
  | .wrote _ bs => o.drop bs.length
  | _ => o

/-- The plaintext that was accepted for sending, has not been dropped, and has not yet been handed to rustls. -/
def unsent (t : List (TlsEv C)) : Bytes := t.foldl unsentStep []

/-- How one thing that happens changes the plaintext accepted since the last drop. -/
def acceptedStep (o : Bytes) : TlsEv C → Bytes
  | .staged bs => o ++ bs
  | .cleared => []
  | _ => o

/-- The plaintext accepted for sending since the last time it was dropped. -/
def accepted (t : List (TlsEv C)) : Bytes := t.foldl acceptedStep []

/-- The plaintext rustls was handed, in order. -/
def uttered : List (TlsEv C) → Bytes
  | [] => []
  | .wrote _ bs :: t => bs ++ uttered t
  | _ :: t => uttered t

/-- The ciphertext rustls was offered and disposed of, in order. -/
def disposed : List (TlsEv C) → Bytes
  | [] => []
  | .fed bs :: t => bs ++ disposed t
  | .ignored bs :: t => bs ++ disposed t
  | _ :: t => disposed t

/-- Rustls, as long as it is in one of the states `ok`, sends everything it has when asked to, is left alone by an
offer it takes nothing of, and takes something of what it is offered when it has nothing left to send. -/
structure Sends (R : Rustls) (ok : R.C → Prop) : Prop where
  ok_write : ∀ c bs, ok c → ok (R.write c bs).1
  ok_writeTls : ∀ c, ok c → ok (R.writeTls c).1
  rest : ∀ c, (R.writeTls (R.writeTls c).1).2 = []
  none : ∀ c bs, (R.write c bs).2 = 0 → (R.write c bs).1 = c
  room : ∀ c bs, ok c → bs ≠ [] → R.handshaking c = false → (R.writeTls c).2 = [] → 0 < (R.write c bs).2
  hs : ∀ c, R.handshaking (R.writeTls c).1 = R.handshaking c
  hs_write : ∀ c bs, R.handshaking (R.write c bs).1 = R.handshaking c
/-- Rustls takes what it is offered. -/
def Takes (R : Rustls) (c : R.C) : Prop := ∀ bs, (R.readTls c bs).2 ≠ none

/-- Rustls refuses ciphertext only for lack of room for plaintext: it takes it as long as the handshake goes on, and once
its plaintext has been fetched; nothing that is sent changes that. A handshake that is over stays over. -/
structure Receives (R : Rustls) : Prop where
  hs : ∀ c, R.handshaking c = true → Takes R c
  drained : ∀ c, Takes R (R.drain c).1
  full : ∀ c bs, (R.readTls c bs).2 = none → (R.drain (R.readTls c bs).1).2 ≠ []
  write : ∀ c bs, Takes R c → Takes R (R.write c bs).1
  writeTls : ∀ c, Takes R c → Takes R (R.writeTls c).1
  close : ∀ c, Takes R c → Takes R (R.closeNotify c)
  over_read : ∀ c bs, R.handshaking c = false → R.handshaking (R.readTls c bs).1 = false
  over_process : ∀ c, R.handshaking c = false → R.handshaking (R.process c).1 = false
  over_drain : ∀ c, R.handshaking c = false → R.handshaking (R.drain c).1 = false
  over_write : ∀ c bs, R.handshaking c = false → R.handshaking (R.write c bs).1 = false
  over_writeTls : ∀ c, R.handshaking c = false → R.handshaking (R.writeTls c).1 = false
  over_close : ∀ c, R.handshaking c = false → R.handshaking (R.closeNotify c) = false

/-- The ciphertext delivered to an exchange, in order. -/
def delivered {I A : Type} : List (TBridge.TOp I A) → Bytes
  | [] => []
  | .feed data _ :: ops => data ++ delivered ops
  | _ :: ops => delivered ops
end Verif.Spec
