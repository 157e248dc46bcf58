import Verif.Model.LayerExchange
/-
`IPCServer::start` (src/ipc/server.rs:30-80; Model/Server.lean has it for plain and encrypted listeners) with a listener that has any number of encrypted layers:
`EncryptedListener<EncryptedListener<TcpListener>>`, protocol_impl.rs:9-31.
-/
namespace Bromine.LayerServer
open Bromine CryptIO Layers
open Bromine.Handshake (DH Keys)

/-- A client that connects. `script`: all that its connection will give to reads, and when. `own` (used by specifications only): the keys the client has for each layer. `fresh`: the session keys that the server will
generate for it (`generate_secret`, crypt_handling.rs:119), for each layer. -/
structure Visitor where
  id : Nat
  script : Script
  own : Nat → Keys
  fresh : Nat → Bytes

/-- The key exchanges with this client; `keys`: the keys of the server for each layer (`EncryptionOptions`, protocol_impl.rs:11-18), the outermost first. -/
def Visitor.exchanges (keys : List Keys) (v : Visitor) : List Exchange := keys.mapIdx fun i k => { client := v.own i, server := k, fresh := v.fresh i }

/-- A connection for which a task with `handle_connection` was spawned, server.rs:53-76. -/
structure Served (keys : List Keys) where
  visitor : Visitor
  w : WState (visitor.exchanges keys).length
  r : RState (visitor.exchanges keys).length

/-- Where `start` is. -/
inductive Phase (A : Aead) (D : DH) (keys : List Keys) where
  /-- `L::protocol_bind(..).await`, line 38 -/
  | binding
  /-- `listener.protocol_accept().await`, line 44: waiting for a connection -/
  | accepting
  /-- the same, after the `accept` of the socket: the key exchanges -/
  | settingUp (v : Visitor) (s : (server A D (v.exchanges keys)).State)
  /-- returned -/
  | ended (r : Except Error Unit)

/-- The server. `backlog`: connections that the operating system has made and that are not accepted. -/
structure State (A : Aead) (D : DH) (keys : List Keys) where
  phase : Phase A D keys := .binding
  backlog : List Visitor := []
  served : List (Served keys) := []

inductive Op where
  /-- the listening socket is bound, or that fails -/
  | bind (r : Except Error Unit)
  /-- a client connects -/
  | connect (v : Visitor)
  /-- `accept` of the socket returns the first connection of the backlog -/
  | accept
  /-- `accept` of the socket returns an error -/
  | acceptFails (e : IoErr)
  /-- the future of `protocol_accept` is polled, when the socket of the client gives these answers to writes and flushes -/
  | poll (as : List IoAns)

/-- One step of the server; see `Server.step`. `while let Ok(..) = listener.protocol_accept().await` (line 44) ends with the first error, whatever it is, and `start` returns `Ok` (line 79). -/
def step (A : Aead) (D : DH) (keys : List Keys) (s : State A D keys) : Op → Option (State A D keys)
  | .bind r =>
    match s.phase with
    | .binding =>
      match r with
      | .ok _ => some { s with phase := .accepting }
      | .error e => some { s with phase := .ended (.error e) }
    | _ => none
  | .connect v => some { s with backlog := s.backlog ++ [v] }
  | .accept =>
    match s.phase, s.backlog with
    | .accepting, v :: vs => some { s with backlog := vs, phase := .settingUp v ((server A D (v.exchanges keys)).init v.script) }
    | _, _ => none
  | .acceptFails _ =>
    match s.phase with
    | .accepting => some { s with phase := .ended (.ok ()) }
    | _ => none
  | .poll as =>
    match s.phase with
    | .settingUp v st =>
      match (server A D (v.exchanges keys)).poll ((server A D (v.exchanges keys)).setSock st { (server A D (v.exchanges keys)).sock st with answers := as }) with
      | .pending _ st => some { s with phase := .settingUp v st }
      | .done w r => some { s with phase := .accepting, served := s.served ++ [{ visitor := v, w := w, r := r }] }
      | .failed _ _ => some { s with phase := .ended (.ok ()) }
      | .panicked _ => some { s with phase := .ended (.error .invalidState) }
    | _ => none

/-- Run a sequence of steps. -/
def run (A : Aead) (D : DH) (keys : List Keys) : State A D keys → List Op → Option (State A D keys)
  | s, [] => some s
  | s, op :: ops => (step A D keys s op).bind fun s => run A D keys s ops

end Bromine.LayerServer
