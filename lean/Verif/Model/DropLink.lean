import Verif.Model.Link
/-
One direction of an encrypted connection as in Model/Link.lean, with emits that are dropped by their callers at any point while they hold
the connection (emit_metadata.rs:84-102: the future is dropped, the guard of line 92 is released, the write half keeps what it has begun,
io_impl.rs:102-174). An emit that panics because of an earlier drop (io_impl.rs:116, 143) is also in this model.
-/
namespace Bromine.Link
open CryptIO

/-- The steps of the transport and of the emit that holds the connection. -/
inductive DropOp where
  /-- the emit that holds the connection is polled; the transport has these answers -/
  | poll (as : List IoAns)
  /-- the emit that holds the connection is dropped -/
  | drop
  | deliver (n : Nat)
  | wait

/-- The transport does not fail, and it does not accept nothing. -/
def fineAns (as : List IoAns) : Bool :=
  as.all fun
    | .fail _ => false
    | .ready n => decide (n ≠ 0)
    | .pending => true

/-- A step. Answers with which the transport fails are left out. -/
def dropStep (A : Aead) (s : CryptState) : DropOp → Option CryptState
  | .poll as =>
    match s.w.lock with
    | some t => if fineAns as then (CryptWire.step A s.w (.poll t as)).map fun w => { s with w := w } else none
    | none => none
  | .drop =>
    match s.w.lock with
    | some t => (CryptWire.step A s.w (.drop t)).map fun w => { s with w := w }
    | none => none
  | .deliver n => (deliver s.w.wire s.sent n s.chunks).map fun (k, cs) => { s with sent := k, chunks := cs }
  | .wait => some { s with chunks := s.chunks ++ [.pending] }

/-- An encrypted connection right after the key exchange, on which emits can be dropped. -/
def cryptDrops (A : Aead) (key : Bytes) (log : List Encryption) (checks : Bool) : Link :=
  { crypt A key log checks with Op := DropOp, step := dropStep A }

end Bromine.Link
