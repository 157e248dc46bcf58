import Verif.Model.Handshake
/-
src/ipc/server.rs:30-80 (`IPCServer::start`), src/protocol/tcp.rs:20-38, src/protocol/unix_socket.rs:13-27 and
src/protocol/encrypted/protocol_impl.rs:9-30 (`protocol_bind`, `protocol_accept`).
-/
namespace Bromine.Server
open Bromine CryptIO Handshake

/-- The listener: plain (TCP or unix socket), or encrypted (protocol_impl.rs:9-30) with the keys of the server. -/
inductive Listener where
  | plain
  | encrypted (keys : Keys)

/-- Where `start` is. -/
inductive Phase where
  /-- `L::protocol_bind(..).await`, line 38 -/
  | binding
  /-- `listener.protocol_accept().await`, line 44: waiting for a connection -/
  | accepting
  /-- the same for an encrypted listener, after the inner accept: `from_server_key_exchange(..).await`, protocol_impl.rs:26; `fresh`: the session key it generates -/
  | exchanging (client : Nat) (fresh : Bytes) (side : Side SPhase)
  /-- returned -/
  | ended (r : Except Error Unit)

/-- The server. `backlog`: connections that the operating system has made and that are not accepted. `served`: the connections for which a task with
`handle_connection` was spawned (lines 53-76), with the session of an encrypted connection. -/
structure State where
  phase : Phase := .binding
  backlog : List Nat := []
  served : List (Nat × Option CryptStream) := []

inductive Op where
  /-- the listening socket is bound, or that fails (also: `set_ttl` fails, tcp.rs:29-31) -/
  | bind (r : Except Error Unit)
  /-- a client connects -/
  | connect (c : Nat)
  /-- `accept` of the socket returns the first connection of the backlog; for an encrypted listener, `fresh` is the secret that it will generate for it -/
  | accept (fresh : Bytes)
  /-- `accept` of the socket returns an error -/
  | acceptFails (e : IoErr)
  /-- something happens to the key exchange that is going on -/
  | exchange (op : Handshake.Op)

/-- One step of the server. `while let Ok(..) = listener.protocol_accept().await` (line 44) ends with the first error, whatever it is, and `start` returns `Ok`
(line 79). The connection task is spawned (line 53), so the loop goes on at once. A panic in the key exchange would end the future of `start`; there is none
(see `serverPoll_inv`), it is mapped to `Err(InvalidState)` here. -/
def step (A : Aead) (D : DH) (l : Listener) (s : State) : Op → Option State
  | .bind r =>
    match s.phase with
    | .binding =>
      match r with
      | .ok _ => some { s with phase := .accepting }
      | .error e => some { s with phase := .ended (.error e) }
    | _ => none
  | .connect c => some { s with backlog := s.backlog ++ [c] }
  | .accept fresh =>
    match s.phase, s.backlog with
    | .accepting, c :: cs =>
      match l with
      | .plain => some { s with backlog := cs, served := s.served ++ [(c, none)] }
      | .encrypted _ => some { s with backlog := cs, phase := .exchanging c fresh serverInit }
    | _, _ => none
  | .acceptFails _ =>
    match s.phase with
    | .accepting => some { s with phase := .ended (.ok ()) }
    | _ => none
  | .exchange op =>
    match s.phase, l with
    | .exchanging c fresh side, .encrypted keys =>
      match side.step (serverPoll A D keys fresh) op with
      | none => none
      | some side =>
        match side.phase with
        | .done st => some { s with phase := .accepting, served := s.served ++ [(c, some st)] }
        | .failed _ => some { s with phase := .ended (.ok ()) }
        | .panicked => some { s with phase := .ended (.error .invalidState) }
        | _ => some { s with phase := .exchanging c fresh side }
    | _, _ => none

/-- Run a sequence of steps. -/
def run (A : Aead) (D : DH) (l : Listener) : State → List Op → Option State
  | s, [] => some s
  | s, op :: ops => (step A D l s op).bind fun s => run A D l s ops

end Bromine.Server
