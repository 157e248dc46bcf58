import Verif.Model.Builder
import Verif.Model.Handshake
/-
src/protocol/tcp.rs, src/protocol/unix_socket.rs, src/protocol/encrypted/protocol_impl.rs: how listeners and streams of the (nested) protocols are made, in terms of
the calls to the operating system and of the key exchanges.
-/
namespace Bromine.Protocol
open Bromine Handshake

/-- Listener or stream options: `TcpOptions` (tcp.rs:8-12), `()` for unix sockets (unix_socket.rs:16 and 44), `EncryptionOptions<T>` (encrypted/mod.rs:20-24) around
the options of the inner protocol. The Rust types fix the nesting; here the value shows it. -/
inductive Options where
  | tcp (ttl : Option UInt32)
  | unix
  | encrypted (inner : Options) (keys : Keys)

/-- Which protocol a listener or stream type is. -/
inductive Proto where
  | tcp
  | unix
  | encrypted (inner : Proto)

/-- `Default` of the options: tcp.rs:8 (derived), `()`, encrypted/mod.rs:33-48. `random n`: the bytes of the random generator for the layer with `n` layers inside
(every `default()` draws its own). -/
def Options.default (random : Nat → Bytes) : Proto → Options
  | .tcp => .tcp none
  | .unix => .unix
  | .encrypted p => .encrypted (default random p) (Keys.default (random (depth p)))
where
  depth : Proto → Nat
    | .tcp => 0
    | .unix => 0
    | .encrypted p => depth p + 1

/-- What is done outside of the modelled code, or (key exchanges) is modelled in Handshake.lean. -/
inductive Call (Addr : Type) where
  /-- `TcpListener::bind`, `UnixListener::bind` -/
  | bind (a : Addr)
  /-- `TcpStream::connect`, `UnixStream::connect` -/
  | connect (a : Addr)
  /-- `set_ttl` of the listener or stream just made -/
  | setTtl (ttl : UInt32)
  /-- `ready(READABLE | WRITABLE)` of a unix stream -/
  | ready
  /-- `accept` of the listening socket -/
  | accept
  /-- `from_server_key_exchange` over a connection with `layer` encrypted layers -/
  | serverExchange (layer : Nat) (keys : Keys)
  /-- `from_client_key_exchange` -/
  | clientExchange (layer : Nat) (keys : Keys)

/-- How a call ends; this may depend on everything that was called before. -/
abbrev World (Addr : Type) := List (Call Addr) → Call Addr → Outcome Unit

/-- An `async fn` that returns a `Result`: from the calls made so far to the calls made when it is over, and its outcome. -/
abbrev Action (Addr α : Type) := World Addr → List (Call Addr) → List (Call Addr) × Outcome α

namespace Action
variable {Addr α β : Type}

def pure (a : α) : Action Addr α := fun _ h => (h, .ok a)

/-- `.await?` and go on. -/
def andThen (m : Action Addr α) (f : α → Action Addr β) : Action Addr β := fun w h =>
  match m w h with
  | (h, .ok a) => f a w h
  | (h, .err e) => (h, .err e)
  | (h, .panic) => (h, .panic)
  | (h, .hang) => (h, .hang)

def call (c : Call Addr) : Action Addr Unit := fun w h => (h ++ [c], w h c)

end Action

/-- `TcpListener`, `UnixListener`, `EncryptedListener { inner, keys }` (encrypted/mod.rs:50-58). -/
inductive Listener where
  | tcp
  | unix
  | encrypted (inner : Listener) (keys : Keys)

/-- `TcpStream`, `UnixStream`, `EncryptedStream` (encrypted/mod.rs:61-64). -/
inductive Stream where
  | tcp
  | unix
  | encrypted (inner : Stream)

/-- The number of encrypted layers of a stream. -/
def Stream.layers : Stream → Nat
  | .tcp => 0
  | .unix => 0
  | .encrypted s => s.layers + 1

variable {Addr : Type}
open Action

/-- `protocol_bind`: tcp.rs:22-32, unix_socket.rs:18-22, protocol_impl.rs:15-22. -/
def bind (a : Addr) : Options → Action Addr Listener
  | .tcp ttl =>
    (call (.bind a)).andThen fun _ =>
      match ttl with
      | some t => (call (.setTtl t)).andThen fun _ => pure .tcp
      | none => pure .tcp
  | .unix => (call (.bind a)).andThen fun _ => pure .unix
  | .encrypted inner keys => (bind a inner).andThen fun l => pure (.encrypted l keys)

/-- `protocol_accept`: tcp.rs:34-38, unix_socket.rs:24-28, protocol_impl.rs:24-29. -/
def accept : Listener → Action Addr Stream
  | .tcp => (call .accept).andThen fun _ => pure .tcp
  | .unix => (call .accept).andThen fun _ => pure .unix
  | .encrypted inner keys =>
    (accept inner).andThen fun s => (call (.serverExchange s.layers keys)).andThen fun _ => pure (.encrypted s)

/-- `protocol_connect`: tcp.rs:55-65, unix_socket.rs:46-56, protocol_impl.rs:37-43. -/
def connect (a : Addr) : Options → Action Addr Stream
  | .tcp ttl =>
    (call (.connect a)).andThen fun _ =>
      match ttl with
      | some t => (call (.setTtl t)).andThen fun _ => pure .tcp
      | none => pure .tcp
  | .unix => (call (.connect a)).andThen fun _ => (call .ready).andThen fun _ => pure .unix
  | .encrypted inner keys =>
    (connect a inner).andThen fun s => (call (.clientExchange s.layers keys)).andThen fun _ => pure (.encrypted s)

/-- The server that a builder builds, up to the bind: builder.rs:196-212 with server.rs:35-40 (`IPCBuilder.buildServer`) over `bind`. -/
def buildServer {CB : Type} (b : IPCBuilder CB Addr Options) : Action Addr Listener := fun w h =>
  let net : NetOp Addr Options → List (Call Addr) × Outcome Listener := fun op =>
    match op with
    | .bind a o => bind a o w h
    | .connect _ _ => (h, .panic)
  match b.buildServer fun op => (net op).2 with
  | ([op], r) => ((net op).1, r)
  | (_, r) => (h, r)

/-- The client: builder.rs:216-236 (`IPCBuilder.buildClient`) over `connect`. -/
def buildClient {CB : Type} (b : IPCBuilder CB Addr Options) : Action Addr Stream := fun w h =>
  let net : NetOp Addr Options → List (Call Addr) × Outcome Stream := fun op =>
    match op with
    | .connect a o => connect a o w h
    | .bind _ _ => (h, .panic)
  match b.buildClient fun op => (net op).2 with
  | ([op], r) => ((net op).1, r)
  | (_, r) => (h, r)

/-- The calls made after `i` connection attempts of a pool. -/
def attempts (m : Action Addr Stream) (w : World Addr) (h : List (Call Addr)) : Nat → List (Call Addr)
  | 0 => h
  | i + 1 => (m w (attempts m w h i)).1

/-- The pool: builder.rs:243-272 (`IPCBuilder.buildPooledClient`) over `connect`. -/
def buildPool {CB : Type} (b : IPCBuilder CB Addr Options) (n : Nat) : Action Addr (List Stream) := fun w h =>
  match b.address with
  | none => (h, (b.buildPooledClient n fun _ => (.panic : Outcome Stream)).2)
  | some a =>
    let m := connect a b.streamOptions
    let r := b.buildPooledClient n fun i => (m w (attempts m w h i)).2
    (attempts m w h r.1.length, r.2)

end Bromine.Protocol
