import Verif.Model.Layers
/-
Reading from a transport that fails: `poll_read` of the socket (tcp.rs, unix_socket.rs: tokio's `OwnedReadHalf`) returns an error at some point, e.g. `ConnectionReset`. All that reads is the code of Model/Layers.lean
(encrypted/io_impl.rs:48-96) and Model/Event.lean (event.rs:138-157, ipc/mod.rs:24); only the socket at the bottom is another one.
-/
namespace Bromine.Layers
open Bromine CryptIO

/-- A socket that fails after these answers, and what it would answer to later calls. -/
structure FailScript where
  chunks : List Chunk
  /-- the error, until it has been given -/
  err : Option IoErr
  after : Script

/-- `poll_read`. (`base` counts the answers that are left, for `drive`; `setBase` is not used.) -/
def socketF : ReadT FailScript where
  pollRead s want :=
    match s.chunks with
    | .pending :: cs => (.pending true, [], { s with chunks := cs })
    | .data b bs :: cs => (.ready (.ok ()), (b :: bs).take want, { s with chunks := pushRest ((b :: bs).drop want) cs })
    | [] =>
      match s.err with
      | some e => (.ready (.error e), [], { s with err := none })
      | none =>
        let (p, bs, a) := socketR.pollRead s.after want
        (p, bs, { s with after := a })
  base s := { chunks := s.chunks ++ s.after.chunks, closed := s.after.closed }
  setBase s a := { s with chunks := [], err := none, after := a }

/-- `n` encrypted read halves over such a socket; the outermost first. -/
def FRState : Nat → Type
  | 0 => FailScript
  | n + 1 => ReadStream × FRState n

/-- `n` encrypted layers over such a socket. -/
def layersF (A : Aead) : (n : Nat) → ReadT (FRState n)
  | 0 => socketF
  | n + 1 => encryptedR (layersF A n) A

/-- The read halves when all sessions have been set up; the outermost layer first. -/
def startF (s : FailScript) : (ls : List Layer) → FRState ls.length
  | [] => s
  | l :: ls => ({ dec := { key := l.key, count := UInt64.ofNat l.start } }, startF s ls)

end Bromine.Layers
