import Verif.Model.Crypt
/-
src/protocol/encrypted/io_impl.rs: the read half and the write half of an encrypted connection, poll by poll.
-/
namespace Bromine.CryptIO

/-- The result of a poll. `pending woken`: `Poll::Pending`, and `woken` tells whether the waker of the task has been
handed to the transport in this poll, so that the task will be polled again. -/
inductive Poll (α : Type) where
  | ready (r : Except IoErr α)
  | pending (woken : Bool)
  | panic

/-! ### Writing -/

/-- An answer of the transport to `poll_write` (it takes `n` of the bytes, at most all of them) or
`poll_flush`/`poll_shutdown` (done). -/
inductive IoAns where
  | ready (n : Nat)
  | pending
  | fail (e : IoErr)
deriving DecidableEq, Repr

/-- One poll of tokio's `write_all(rem)` on the transport, given the answers that the transport has for this poll; when
they are used up the transport is pending. Returns the bytes that went to the wire and the bytes left. -/
def pollWriteAll : Bytes → List IoAns → Option (Except IoErr Unit) × Bytes × Bytes × List IoAns
  | [], as => (some (.ok ()), [], [], as)
  | b :: bs, [] => (none, [], b :: bs, [])
  | b :: bs, .pending :: as => (none, [], b :: bs, as)
  | b :: bs, .fail e :: as => (some (.error e), [], b :: bs, as)
  | b :: bs, .ready 0 :: as => (some (.error .writeZero), [], b :: bs, as)
  | b :: bs, .ready (n + 1) :: as =>
    let (r, w, rem, as) := pollWriteAll ((b :: bs).drop (n + 1)) as
    (r, (b :: bs).take (n + 1) ++ w, rem, as)
termination_by _ as => as.length

/-- `fut_flush`, io_impl.rs:147-162: the package is being written (`rem` is left), or the transport is being flushed. -/
inductive FlushFut where
  | writing (rem : Bytes)
  | flushing
deriving DecidableEq, Repr

/-- `EncryptedWriteStream`, mod.rs:111-118. `inner` and `cipher` say whether the `Option`s are `Some`; if not, a
future has taken them. `futWrite` is the rest of the package that the future of `write_bytes` is writing. -/
structure WriteStream where
  enc : Encryptor
  inner : Bool := true
  cipher : Bool := true
  buffer : Bytes := []
  futWrite : Option Bytes := none
  futFlush : Option FlushFut := none
  futShutdown : Bool := false
deriving DecidableEq, Repr

/-- `WRITE_BUF_SIZE`, io_impl.rs:14. -/
def WRITE_BUF_SIZE : Nat := 1024

/-- `u32::MAX as usize`. -/
def u32Max : Nat := 2 ^ 32 - 1

/-- What a poll of the write half leads to: the result, the new state, the bytes that went to the wire, the
unused answers of the transport. -/
structure WriteRes (α : Type) where
  poll : Poll α
  ws : WriteStream
  wire : Bytes := []
  rest : List IoAns := []

/-- io_impl.rs:126-135: the future of `write_bytes` is polled. -/
def pollFutWrite (ws : WriteStream) (rem : Bytes) (len : Nat) (as : List IoAns) : WriteRes Nat :=
  match pollWriteAll rem as with
  | (some r, w, _, as) =>
    { poll := .ready (r.map fun _ => len), ws := { ws with inner := true, cipher := true, futWrite := none }, wire := w, rest := as }
  | (none, w, rem, as) => { poll := .pending true, ws := { ws with futWrite := some rem }, wire := w, rest := as }

/-- `poll_write`, io_impl.rs:102-136. The future of `write_bytes` (lines 202-222) is first polled in the call that
creates it; its first action is the encryption, which is therefore done here. -/
def WriteStream.pollWrite (A : Aead) (ws : WriteStream) (buf : Bytes) (as : List IoAns) : WriteRes Nat :=
  match ws.futWrite with
  | some rem => pollFutWrite ws rem buf.length as
  | none =>
    let ws := { ws with buffer := ws.buffer ++ buf }
    if WRITE_BUF_SIZE ≤ ws.buffer.length then
      let plaintext := ws.buffer.take u32Max
      let ws := { ws with buffer := ws.buffer.drop u32Max }
      if ws.inner && ws.cipher then
        match ws.enc.encrypt A plaintext with
        | (.ok c, x) => pollFutWrite { ws with enc := x, inner := false, cipher := false } (packageBytes c) buf.length as
        | (.error e, x) => { poll := .ready (.error e), ws := { ws with enc := x }, rest := as }
      else { poll := .panic, ws := ws, rest := as }
    else { poll := .ready (.ok buf.length), ws := ws, rest := as }

/-- io_impl.rs:157-161 and 164-173: the transport is flushed. -/
def pollFutFlush (ws : WriteStream) (as : List IoAns) : WriteRes Unit :=
  match as with
  | [] => { poll := .pending true, ws := { ws with futFlush := some .flushing } }
  | .pending :: as => { poll := .pending true, ws := { ws with futFlush := some .flushing }, rest := as }
  | .fail e :: as =>
    { poll := .ready (.error e), ws := { ws with inner := true, cipher := true, futFlush := none }, rest := as }
  | .ready _ :: as =>
    { poll := .ready (.ok ()), ws := { ws with inner := true, cipher := true, futFlush := none }, rest := as }

/-- io_impl.rs:148-161: the package is written, then the transport is flushed. -/
def pollFlushWrite (ws : WriteStream) (rem : Bytes) (as : List IoAns) : WriteRes Unit :=
  match pollWriteAll rem as with
  | (some (.ok _), w, _, as) => let r := pollFutFlush ws as; { r with wire := w }
  | (some (.error e), w, _, as) =>
    { poll := .ready (.error e), ws := { ws with inner := true, cipher := true, futFlush := none }, wire := w, rest := as }
  | (none, w, rem, as) => { poll := .pending true, ws := { ws with futFlush := some (.writing rem) }, wire := w, rest := as }

/-- `poll_flush`, io_impl.rs:138-174. -/
def WriteStream.pollFlush (A : Aead) (ws : WriteStream) (as : List IoAns) : WriteRes Unit :=
  match ws.futFlush with
  | some (.writing rem) => pollFlushWrite ws rem as
  | some .flushing => pollFutFlush ws as
  | none =>
    let plaintext := ws.buffer.take u32Max
    let ws := { ws with buffer := ws.buffer.drop u32Max }
    if ws.inner && ws.cipher then
      let ws := { ws with inner := false, cipher := false }
      if 0 < plaintext.length then
        match ws.enc.encrypt A plaintext with
        | (.ok c, x) => pollFlushWrite { ws with enc := x } (packageBytes c) as
        | (.error e, x) => { poll := .ready (.error e), ws := { ws with enc := x, inner := true, cipher := true }, rest := as }
      else pollFutFlush ws as
    else { poll := .panic, ws := ws, rest := as }

/-- `poll_shutdown`, io_impl.rs:176-198. After the flush the future is only created, not polled, so no waker is registered
(line 183); the transport is never given back (line 181). -/
def WriteStream.pollShutdown (A : Aead) (ws : WriteStream) (as : List IoAns) : WriteRes Unit :=
  if ws.futShutdown then
    match as with
    | [] => { poll := .pending true, ws := ws }
    | .pending :: as => { poll := .pending true, ws := ws, rest := as }
    | .fail e :: as => { poll := .ready (.error e), ws := { ws with futShutdown := false }, rest := as }
    | .ready _ :: as => { poll := .ready (.ok ()), ws := { ws with futShutdown := false }, rest := as }
  else
    let r := ws.pollFlush A as
    match r.poll with
    | .ready (.ok _) =>
      if r.ws.inner then { r with poll := .pending false, ws := { r.ws with inner := false, futShutdown := true } }
      else { r with poll := .panic }
    | _ => r

/-- A poll of the write half by whoever holds it. -/
inductive WOp where
  | write (buf : Bytes) (as : List IoAns)
  | flush (as : List IoAns)
  | shutdown (as : List IoAns)

/-- The write half after a poll. -/
def WriteStream.apply (A : Aead) (ws : WriteStream) : WOp → WriteStream
  | .write buf as => (ws.pollWrite A buf as).ws
  | .flush as => (ws.pollFlush A as).ws
  | .shutdown as => (ws.pollShutdown A as).ws

/-- The write half after a sequence of polls. -/
def WriteStream.applyAll (A : Aead) (ws : WriteStream) (ops : List WOp) : WriteStream := ops.foldl (WriteStream.apply A) ws

/-! ### Reading -/

/-- The bytes read so far of a package are the whole package. -/
def complete (acc : Bytes) : Bool := decide (4 ≤ acc.length ∧ acc.length = 4 + beVal (acc.take 4))

/-- Take bytes from a chunk until the package is complete (`read_u32` and `read_exact` only take what they need). -/
def feed : Bytes → Bytes → Bytes × Bytes
  | acc, [] => (acc, [])
  | acc, b :: bs => if complete acc then (acc, b :: bs) else feed (acc ++ [b]) bs

/-- The result of polling `EncryptedPackage::from_async_read`. -/
inductive PkgPoll where
  | pending (acc : Bytes)
  | done (c : Bytes)
  | err (e : IoErr)
deriving DecidableEq, Repr

/-- One poll of `EncryptedPackage::from_async_read` (mod.rs:150-158) after the bytes `acc` of the package have been read:
the transport is polled until it is pending or the package is complete. -/
def pollPackage (closed : Bool) : Bytes → List Chunk → PkgPoll × List Chunk
  | acc, [] => if closed then (.err .unexpectedEof, []) else (.pending acc, [])
  | acc, .pending :: cs => (.pending acc, cs)
  | acc, .data b bs :: cs =>
    let (acc, rest) := feed acc (b :: bs)
    if complete acc then (.done (acc.drop 4), pushRest rest cs) else pollPackage closed acc cs

/-- `fut` of the read half: the package is being read, or the future has returned an error (io_impl.rs:91 does not
remove it then; polling it again panics: "async fn resumed after completion"). -/
inductive ReadFut where
  | reading (acc : Bytes)
  | finished
deriving DecidableEq, Repr

/-- `EncryptedReadStream`, mod.rs:93-98. `inner` and `cipher` are `None` exactly while a package is being read. -/
structure ReadStream where
  dec : Decryptor
  remaining : Bytes := []
  fut : Option ReadFut := none
deriving DecidableEq, Repr

/-- What a poll of the read half leads to; `filled` are the bytes put into the buffer of the caller, also if the result is
`Pending`. -/
structure ReadRes where
  poll : Poll Unit
  filled : Bytes := []
  rs : ReadStream
  chunks : List Chunk

/-- io_impl.rs:72-95: poll the future; the buffer has `want` bytes left. -/
def pollFutRead (A : Aead) (closed : Bool) (rs : ReadStream) (want : Nat) (cs : List Chunk) : ReadRes :=
  match rs.fut with
  | some (.reading acc) =>
    match pollPackage closed acc cs with
    | (.pending acc, cs) => { poll := .pending true, rs := { rs with fut := some (.reading acc) }, chunks := cs }
    | (.err e, cs) => { poll := .ready (.error e), rs := { rs with fut := some .finished }, chunks := cs }
    | (.done c, cs) =>
      match rs.dec.decrypt A c with
      | (.error e, x) => { poll := .ready (.error e), rs := { rs with dec := x, fut := some .finished }, chunks := cs }
      | (.ok p, x) =>
        let remaining := rs.remaining ++ p
        { poll := if want ≤ remaining.length then .ready (.ok ()) else .pending false
          filled := remaining.take want, rs := { dec := x, remaining := remaining.drop want, fut := none }, chunks := cs }
  | _ => { poll := .panic, rs := rs, chunks := cs }

/-- `poll_read`, io_impl.rs:49-96, with a buffer for `want` bytes. -/
def ReadStream.pollRead (A : Aead) (closed : Bool) (rs : ReadStream) (want : Nat) (cs : List Chunk) : ReadRes :=
  match rs.fut with
  | some _ => pollFutRead A closed rs want cs
  | none =>
    let got := rs.remaining.take want
    let rs := { rs with remaining := rs.remaining.drop want }
    if got.length < want then
      let r := pollFutRead A closed { rs with fut := some (.reading []) } (want - got.length) cs
      { r with filled := got ++ r.filled }
    else { poll := .ready (.ok ()), filled := got, rs := rs, chunks := cs }

/-- The read half on a transport. -/
structure Reader where
  rs : ReadStream
  script : Script
deriving DecidableEq, Repr

/-- tokio's `read_exact` and `read_u64` etc. (`int = true`) on the read half, driven to completion. `got` are the
bytes already in the buffer, `want` are missing. The task is polled again only when it is woken; so a `Pending`
without a registered waker is the end (`hang`). `read_exact` keeps what a pending poll has put into its buffer;
`read_u64` etc. create a new `ReadBuf` for every poll and forget it (tokio `io/util/read_int.rs`). Each woken poll uses up an
answer of the transport; `fuel` is more than there are. A poll that is ready fills the whole buffer. -/
def drive (A : Aead) (int : Bool) : Nat → Nat → Bytes → Reader → Outcome (Bytes × Reader)
  | _, 0, got, r => .ok (got, r)
  | 0, _, _, _ => .hang
  | fuel + 1, want, got, r =>
    let res := r.rs.pollRead A r.script.closed want r.script.chunks
    let r' : Reader := { rs := res.rs, script := { r.script with chunks := res.chunks } }
    match res.poll with
    | .ready (.ok _) => .ok (got ++ res.filled, r')
    | .ready (.error e) => .err (.io e)
    | .panic => .panic
    | .pending false => .hang
    | .pending true =>
      if int then drive A int fuel want got r'
      else drive A int fuel (want - res.filled.length) (got ++ res.filled) r'

/-- An encrypted connection as a source of bytes for `Event::from_async_read`. -/
def cryptSource (A : Aead) : Source Reader where
  readExact n r := drive A false (r.script.chunks.length + 2) n [] r
  readInt n r := drive A true (r.script.chunks.length + 2) n [] r

/-! ### A connection -/

/-- `EncryptedStream`, mod.rs:61-64. -/
structure CryptStream where
  read : ReadStream
  write : WriteStream
deriving DecidableEq, Repr

/-- `EncryptedStream::new`, mod.rs:67-77: both halves use the same key and their counters are 0 (crypt_handling.rs:30-39). -/
def CryptStream.new (secret : Bytes) : CryptStream := { read := { dec := { key := secret } }, write := { enc := { key := secret } } }

/-- `EncryptedStream::update_key`, mod.rs:79-90 with `CipherBox::update_key`, crypt_handling.rs:63-75: new key, counters 0. (It panics
if a future has taken a cipher; it is only called when no future exists.) The history `log` goes on. -/
def CryptStream.updateKey (s : CryptStream) (key : Bytes) : CryptStream :=
  { read := { s.read with dec := { key := key } }, write := { s.write with enc := { key := key, log := s.write.enc.log } } }

end Bromine.CryptIO
