import Verif.Model.CryptWire
/-
One direction of a connection, from the emitters on the one side to the receive loop of the other side: the bytes on
the way, in the transport and in the receiver. Two kinds: plain connections (tcp.rs, unix_socket.rs) and encrypted ones
(encrypted/io_impl.rs).

Assumed of the transport (tcp.rs:40-47 and unix_socket.rs:31-38 forward to tokio's sockets): it delivers the bytes written to it in order,
in pieces of any size, with any waits, and it may stall for ever at any point.
An emit enters the model when it gets the lock of the connection (emit_metadata.rs:92); before that it has no effect on it. Emits that fail
or are dropped while they hold the lock are not in this model (see C19, C45 for what they do); an emit may stall for ever.
-/
namespace Bromine

/-- One direction of a connection. -/
structure Link where
  State : Type
  init : State
  Op : Type
  /-- a step of the emit that holds the connection, or of the transport -/
  step : State → Op → Option State
  /-- an emit gets the connection, emit_metadata.rs:92 -/
  emit : State → Event → Option State
  /-- the receive loop gets an event from `from_async_read`, ipc/mod.rs:24 -/
  read : State → Option (Event × State)

namespace Link

/-- The steps of the transport and of the emit that holds a plain connection. -/
inductive PlainOp where
  /-- `write_all` gets rid of `n + 1` more bytes, emit_metadata.rs:93 -/
  | write (n : Nat)
  /-- `flush` succeeds and the lock is released, emit_metadata.rs:94-97 -/
  | flush
  /-- `n + 1` more bytes become available to the receiver at once -/
  | deliver (n : Nat)
  /-- the receiver finds no bytes and has to wait -/
  | wait

/-- `sent` bytes of the wire have become available to the receiver; `chunks` are those that no event has been read from. -/
structure PlainState where
  w : Wire.State := {}
  sent : Nat := 0
  chunks : List Chunk := []

/-- The transport hands on the next `n + 1` bytes of `wire`. -/
def deliver (wire : Bytes) (sent n : Nat) (chunks : List Chunk) : Option (Nat × List Chunk) :=
  if sent + n + 1 ≤ wire.length then some (sent + n + 1, chunks ++ pushRest ((wire.drop sent).take (n + 1)) []) else none

/-- A step of a plain connection. -/
def plainStep (s : PlainState) : PlainOp → Option PlainState
  | .write n =>
    match s.w.lock with
    | some t => (Wire.step s.w (.write t n)).map fun w => { s with w := w }
    | none => none
  | .flush =>
    match s.w.lock with
    | some t => (Wire.step s.w (.flush t)).map fun w => { s with w := w }
    | none => none
  | .deliver n => (deliver s.w.wire s.sent n s.chunks).map fun (k, cs) => { s with sent := k, chunks := cs }
  | .wait => some { s with chunks := s.chunks ++ [.pending] }

/-- A plain connection, tcp.rs and unix_socket.rs. `checks`: see `subU64`. Emits are numbered in the order in which they get the lock. -/
def plain (checks : Bool) : Link where
  State := PlainState
  init := {}
  Op := PlainOp
  step := plainStep
  emit s e :=
    ((Wire.step s.w (.start s.w.log.length e)).bind fun w => Wire.step w (.lock s.w.log.length)).map fun w => { s with w := w }
  read s :=
    match Event.fromAsyncRead scriptSource checks { chunks := s.chunks, closed := false } with
    | .ok (e, sc) => some (e, { s with chunks := sc.chunks })
    | _ => none

/-- The steps of the transport and of the emit that holds an encrypted connection. -/
inductive CryptOp where
  /-- the emit that holds the connection is polled; the transport has these answers -/
  | poll (as : List CryptIO.IoAns)
  | deliver (n : Nat)
  | wait

/-- As `PlainState`; `rs` is the read half of the receiver. -/
structure CryptState where
  w : CryptWire.State
  sent : Nat := 0
  chunks : List Chunk := []
  rs : CryptIO.ReadStream

/-- A step of an encrypted connection. Polls in which the transport fails are left out. -/
def cryptStep (A : Aead) (s : CryptState) : CryptOp → Option CryptState
  | .poll as =>
    match s.w.lock with
    | some t =>
      match CryptWire.step A s.w (.poll t as) with
      | some w => if w.broken then none else some { s with w := w }
      | none => none
    | none => none
  | .deliver n => (deliver s.w.wire s.sent n s.chunks).map fun (k, cs) => { s with sent := k, chunks := cs }
  | .wait => some { s with chunks := s.chunks ++ [.pending] }

/-- One direction of an encrypted connection, from the write half `ws` of the one side to the read half `rs` of the other. -/
def halves (A : Aead) (ws : CryptIO.WriteStream) (rs : CryptIO.ReadStream) (checks : Bool) : Link where
  State := CryptState
  init := { w := { ws := ws }, rs := rs }
  Op := CryptOp
  step := cryptStep A
  emit s e :=
    ((CryptWire.step A s.w (.start s.w.log.length e)).bind fun w => CryptWire.step A w (.lock s.w.log.length)).map fun w =>
      { s with w := w }
  read s :=
    match Event.fromAsyncRead (CryptIO.cryptSource A) checks { rs := s.rs, script := { chunks := s.chunks, closed := false } } with
    | .ok (e, r) => some (e, { s with chunks := r.script.chunks, rs := r.rs })
    | _ => none

/-- An encrypted connection with session key `key` for this direction, right after the key exchange (mod.rs:79-90: counters 0). `log` (a
history variable) are the encryptions that have been done before, with other keys. -/
def crypt (A : Aead) (key : Bytes) (log : List Encryption) (checks : Bool) : Link :=
  halves A { enc := { key := key, log := log } } { dec := { key := key } } checks

end Link
end Bromine
