import Verif.Model.CryptIO
/-
An encrypted connection as a byte stream, with callers that write and read whatever they like: the library itself only writes whole
events (Model/CryptWire.lean), but `EncryptedStream` is an `AsyncRead + AsyncWrite` (io_impl.rs:17-199).
-/
namespace Bromine.CryptBytes
open Bromine CryptIO

/-- A call of the one who holds the write half: `write(buf)` or `flush()` of tokio's `AsyncWriteExt`, polled until it is ready. -/
inductive Call where
  | write (buf : Bytes)
  | flush
deriving DecidableEq, Repr

/-- The write half and its caller. `cur`: the call that has been polled and was not ready yet. `accepted`: the bytes of the writes that have returned
`Ok`. `flushed`: the last call that has returned was a `flush`. `failed`: a call has returned an error or panicked. -/
structure Writer where
  ws : WriteStream
  wire : Bytes := []
  accepted : Bytes := []
  cur : Option Call := none
  flushed : Bool := false
  failed : Bool := false

/-- A poll of a call, with the answers of the transport for this poll: `poll_write`, `poll_flush`, io_impl.rs:102-174. A call that is pending is polled
again until it is ready (not dropped; for that see C45). -/
def Writer.poll (A : Aead) (s : Writer) (c : Call) (as : List IoAns) : Option Writer :=
  if s.failed = true ∨ (s.cur ≠ none ∧ s.cur ≠ some c) then none
  else
    match c with
    | .write buf =>
      let r := s.ws.pollWrite A buf as
      let s := { s with ws := r.ws, wire := s.wire ++ r.wire }
      match r.poll with
      | .pending _ => some { s with cur := some c }
      | .ready (.ok n) => some { s with cur := none, accepted := s.accepted ++ buf.take n, flushed := false }
      | _ => some { s with failed := true }
    | .flush =>
      let r := s.ws.pollFlush A as
      let s := { s with ws := r.ws, wire := s.wire ++ r.wire }
      match r.poll with
      | .pending _ => some { s with cur := some c }
      | .ready (.ok _) => some { s with cur := none, flushed := true }
      | _ => some { s with failed := true }

/-- A sequence of polls. -/
def Writer.polls (A : Aead) : Writer → List (Call × List IoAns) → Option Writer
  | s, [] => some s
  | s, (c, as) :: ps => (s.poll A c as).bind fun s' => s'.polls A ps

/-- The write half and a caller that goes on after errors. `begun`: the bytes of the writes that have been polled, in a row. `returned`: the calls that have
returned, in order, with the error if there was one. -/
structure Caller where
  ws : WriteStream
  wire : Bytes := []
  begun : Bytes := []
  cur : Option Call := none
  returned : List (Call × Option IoErr) := []
  panicked : Bool := false

/-- A poll of a call (io_impl.rs:102-174), as `Writer.poll`, but a call that has returned an error is followed by further calls. -/
def Caller.poll (A : Aead) (s : Caller) (c : Call) (as : List IoAns) : Option Caller :=
  if s.panicked = true ∨ (s.cur ≠ none ∧ s.cur ≠ some c) then none
  else
    match c with
    | .write buf =>
      let r := s.ws.pollWrite A buf as
      let s := { s with ws := r.ws, wire := s.wire ++ r.wire, begun := if s.cur = none then s.begun ++ buf else s.begun }
      match r.poll with
      | .pending _ => some { s with cur := some c }
      | .ready (.ok _) => some { s with cur := none, returned := s.returned ++ [(c, none)] }
      | .ready (.error e) => some { s with cur := none, returned := s.returned ++ [(c, some e)] }
      | .panic => some { s with panicked := true }
    | .flush =>
      let r := s.ws.pollFlush A as
      let s := { s with ws := r.ws, wire := s.wire ++ r.wire }
      match r.poll with
      | .pending _ => some { s with cur := some c }
      | .ready (.ok _) => some { s with cur := none, returned := s.returned ++ [(c, none)] }
      | .ready (.error e) => some { s with cur := none, returned := s.returned ++ [(c, some e)] }
      | .panic => some { s with panicked := true }

/-- A sequence of polls. -/
def Caller.polls (A : Aead) : Caller → List (Call × List IoAns) → Option Caller
  | s, [] => some s
  | s, (c, as) :: ps => (s.poll A c as).bind fun s' => s'.polls A ps

/-- Polls of the read half with buffers of the given sizes, io_impl.rs:49-96; returns the bytes that have been put into the buffers, one after the
other. -/
def readPolls (A : Aead) (closed : Bool) : ReadStream → List Chunk → List Nat → Bytes
  | _, _, [] => []
  | rs, cs, want :: ws =>
    let r := rs.pollRead A closed want cs
    r.filled ++ readPolls A closed r.rs r.chunks ws

/-- `read_exact` calls with buffers of the given sizes; `none` if one of them does not return `Ok`. -/
def readExacts (A : Aead) : Reader → List Nat → Option (List Bytes)
  | _, [] => some []
  | r, n :: ns =>
    match (cryptSource A).readExact n r with
    | .ok (b, r') => (readExacts A r' ns).map (b :: ·)
    | _ => none

end Bromine.CryptBytes
