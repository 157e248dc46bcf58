import Verif.Model.CryptIO
import Verif.Model.Wire
/-
Encrypted layers over any transport: `EncryptedStream<T>` for every `T : AsyncProtocolStream` (encrypted/mod.rs:61-64, protocol_impl.rs:33-54), so also for
`EncryptedStream<EncryptedStream<TcpStream>>`, to any depth. The code of encrypted/io_impl.rs is that of Model/CryptIO.lean, but the transport is a parameter here;
with the transport of CryptIO.lean both are the same (`C77_one_layer`).
-/
namespace Bromine.Layers
open Bromine CryptIO

/-! ### Writing -/

/-- A transport to write to, `AsyncWrite` (without `poll_shutdown`, see Model/CryptIO.lean for that). `base` and `setBase`: the socket at the bottom. -/
structure WriteT (τ B : Type) where
  pollWrite : τ → Bytes → Poll Nat × τ
  pollFlush : τ → Poll Unit × τ
  base : τ → B
  setBase : τ → B → τ

/-- A socket (tcp.rs, unix_socket.rs): its answers for the current poll of the task (see `IoAns`), and the bytes it has taken. -/
structure Socket where
  answers : List IoAns := []
  wire : Bytes := []
deriving DecidableEq, Repr

/-- The socket as a transport; when its answers are used up it is pending. -/
def socket : WriteT Socket Socket where
  pollWrite s buf :=
    match s.answers with
    | [] => (.pending true, s)
    | .pending :: as => (.pending true, { s with answers := as })
    | .fail e :: as => (.ready (.error e), { s with answers := as })
    | .ready n :: as => (.ready (.ok (min n buf.length)), { answers := as, wire := s.wire ++ buf.take n })
  pollFlush s :=
    match s.answers with
    | [] => (.pending true, s)
    | .pending :: as => (.pending true, { s with answers := as })
    | .fail e :: as => (.ready (.error e), { s with answers := as })
    | .ready _ :: as => (.ready (.ok ()), { s with answers := as })
  base s := s
  setBase _ s := s

/-- One poll of tokio's `write_all(rem)`; with the bytes left. -/
def writeAll {τ B : Type} (T : WriteT τ B) (t : τ) (rem : Bytes) : Poll Unit × Bytes × τ :=
  if _h : rem = [] then (.ready (.ok ()), [], t)
  else
    match T.pollWrite t rem with
    | (.ready (.ok 0), t) => (.ready (.error .writeZero), rem, t)
    | (.ready (.ok (n + 1)), t) => writeAll T t (rem.drop (n + 1))
    | (.ready (.error e), t) => (.ready (.error e), rem, t)
    | (.pending w, t) => (.pending w, rem, t)
    | (.panic, t) => (.panic, rem, t)
termination_by rem.length
decreasing_by
  cases rem with
  | nil => exact absurd rfl _h
  | cons b bs => simp; omega

section
variable {τ B : Type} (T : WriteT τ B)

/-- io_impl.rs:126-135: the future of `write_bytes` is polled. -/
def pollFutWrite (ws : WriteStream) (t : τ) (rem : Bytes) (len : Nat) : Poll Nat × WriteStream × τ :=
  match writeAll T t rem with
  | (.ready (.ok _), _, t) => (.ready (.ok len), { ws with inner := true, cipher := true, futWrite := none }, t)
  | (.ready (.error e), _, t) => (.ready (.error e), { ws with inner := true, cipher := true, futWrite := none }, t)
  | (.pending w, rem, t) => (.pending w, { ws with futWrite := some rem }, t)
  | (.panic, rem, t) => (.panic, { ws with futWrite := some rem }, t)

/-- `poll_write`, io_impl.rs:102-136. -/
def pollWrite (A : Aead) (s : WriteStream × τ) (buf : Bytes) : Poll Nat × WriteStream × τ :=
  let (ws, t) := s
  match ws.futWrite with
  | some rem => pollFutWrite T ws t rem buf.length
  | none =>
    let ws := { ws with buffer := ws.buffer ++ buf }
    if WRITE_BUF_SIZE ≤ ws.buffer.length then
      let plaintext := ws.buffer.take u32Max
      let ws := { ws with buffer := ws.buffer.drop u32Max }
      if ws.inner && ws.cipher then
        match ws.enc.encrypt A plaintext with
        | (.ok c, x) => pollFutWrite T { ws with enc := x, inner := false, cipher := false } t (packageBytes c) buf.length
        | (.error e, x) => (.ready (.error e), { ws with enc := x }, t)
      else (.panic, ws, t)
    else (.ready (.ok buf.length), ws, t)

/-- io_impl.rs:157-161 and 164-173: the transport is flushed. -/
def pollFutFlush (ws : WriteStream) (t : τ) : Poll Unit × WriteStream × τ :=
  match T.pollFlush t with
  | (.ready r, t) => (.ready r, { ws with inner := true, cipher := true, futFlush := none }, t)
  | (.pending w, t) => (.pending w, { ws with futFlush := some .flushing }, t)
  | (.panic, t) => (.panic, { ws with futFlush := some .flushing }, t)

/-- io_impl.rs:148-161: the package is written, then the transport is flushed. -/
def pollFlushWrite (ws : WriteStream) (t : τ) (rem : Bytes) : Poll Unit × WriteStream × τ :=
  match writeAll T t rem with
  | (.ready (.ok _), _, t) => pollFutFlush T ws t
  | (.ready (.error e), _, t) => (.ready (.error e), { ws with inner := true, cipher := true, futFlush := none }, t)
  | (.pending w, rem, t) => (.pending w, { ws with futFlush := some (.writing rem) }, t)
  | (.panic, rem, t) => (.panic, { ws with futFlush := some (.writing rem) }, t)

/-- `poll_flush`, io_impl.rs:138-174. -/
def pollFlush (A : Aead) (s : WriteStream × τ) : Poll Unit × WriteStream × τ :=
  let (ws, t) := s
  match ws.futFlush with
  | some (.writing rem) => pollFlushWrite T ws t rem
  | some .flushing => pollFutFlush T ws t
  | none =>
    let plaintext := ws.buffer.take u32Max
    let ws := { ws with buffer := ws.buffer.drop u32Max }
    if ws.inner && ws.cipher then
      let ws := { ws with inner := false, cipher := false }
      if 0 < plaintext.length then
        match ws.enc.encrypt A plaintext with
        | (.ok c, x) => pollFlushWrite T { ws with enc := x } t (packageBytes c)
        | (.error e, x) => (.ready (.error e), { ws with enc := x, inner := true, cipher := true }, t)
      else pollFutFlush T ws t
    else (.panic, ws, t)

/-- An encrypted write half over the transport `T`: `EncryptedWriteStream<T>`, mod.rs:111-118, io_impl.rs:101-174. -/
def encryptedW (A : Aead) : WriteT (WriteStream × τ) B where
  pollWrite := pollWrite T A
  pollFlush := pollFlush T A
  base s := T.base s.2
  setBase s b := (s.1, T.setBase s.2 b)

end

/-- The state of `n` encrypted write halves over a socket; the outermost first. -/
def WState : Nat → Type
  | 0 => Socket
  | n + 1 => WriteStream × WState n

/-- `n` encrypted layers over a socket. -/
def layersW (A : Aead) : (n : Nat) → WriteT (WState n) Socket
  | 0 => socket
  | n + 1 => encryptedW (layersW A n) A

/-! ### Reading -/

/-- A transport to read from, `AsyncRead`: `pollRead want` has a buffer with room for `want` bytes, and gives the bytes put into it, also if it is pending. `base` and
`setBase`: the socket at the bottom, given by its future answers. -/
structure ReadT (ρ : Type) where
  pollRead : ρ → Nat → Poll Unit × Bytes × ρ
  base : ρ → Script
  setBase : ρ → Script → ρ

/-- A socket. `Ready` with nothing in the buffer is the end of the stream. -/
def socketR : ReadT Script where
  pollRead s want :=
    match s.chunks with
    | [] => if s.closed then (.ready (.ok ()), [], s) else (.pending true, [], s)
    | .pending :: cs => (.pending true, [], { s with chunks := cs })
    | .data b bs :: cs => (.ready (.ok ()), (b :: bs).take want, { s with chunks := pushRest ((b :: bs).drop want) cs })
  base s := s
  setBase _ s := s

/-- What a poll of tokio's `read_exact` or `read_u32` etc. leads to; `got`: the bytes in its buffer. -/
inductive Fill (ρ : Type) where
  | done (got : Bytes) (r : ρ)
  | pending (woken : Bool) (got : Bytes) (r : ρ)
  | fail (e : IoErr) (r : ρ)
  | panic (r : ρ)

/-- One poll of tokio's `read_exact` (`int = false`) or `read_u16`, `read_u32`, `read_u64` (`int = true`) into a buffer of `n` bytes, `got` of which are there. A poll of the transport that is ready
and has given nothing is an `UnexpectedEof`. If the transport is pending, `read_exact` keeps what it has put into the buffer, `read_u32` etc. forget it (tokio `io/util/read_exact.rs`,
`read_int.rs`). -/
def fill {ρ : Type} (R : ReadT ρ) (int : Bool) (n : Nat) (got : Bytes) (r : ρ) : Fill ρ :=
  if n ≤ got.length then .done got r
  else
    match R.pollRead r (n - got.length) with
    | (.ready (.ok _), [], r) => .fail .unexpectedEof r
    | (.ready (.ok _), b :: bs, r) => fill R int n (got ++ b :: bs) r
    | (.ready (.error e), _, r) => .fail e r
    | (.pending w, bs, r) => .pending w (if int then got else got ++ bs) r
    | (.panic, _, r) => .panic r
termination_by n - got.length
decreasing_by simp; omega

section
variable {ρ : Type} (R : ReadT ρ)

/-- One poll of `EncryptedPackage::from_async_read`, mod.rs:150-158, after the bytes `acc` of the package have been read: `read_u32`, then `read_exact`. -/
def pollPackage (acc : Bytes) (r : ρ) : Fill ρ :=
  if acc.length < 4 then
    match fill R true 4 acc r with
    | .done acc r => fill R false (4 + beVal (acc.take 4)) acc r
    | f => f
  else fill R false (4 + beVal (acc.take 4)) acc r

/-- io_impl.rs:72-95: poll the future; the buffer has room for `want` bytes. -/
def pollFutRead (A : Aead) (rs : ReadStream) (r : ρ) (want : Nat) : Poll Unit × Bytes × ReadStream × ρ :=
  match rs.fut with
  | some (.reading acc) =>
    match pollPackage R acc r with
    | .pending w acc r => (.pending w, [], { rs with fut := some (.reading acc) }, r)
    | .fail e r => (.ready (.error e), [], { rs with fut := some .finished }, r)
    | .panic r => (.panic, [], { rs with fut := some .finished }, r)
    | .done acc r =>
      match rs.dec.decrypt A (acc.drop 4) with
      | (.error e, x) => (.ready (.error e), [], { rs with dec := x, fut := some .finished }, r)
      | (.ok p, x) =>
        let remaining := rs.remaining ++ p
        (if want ≤ remaining.length then .ready (.ok ()) else .pending false, remaining.take want,
          { dec := x, remaining := remaining.drop want, fut := none }, r)
  | _ => (.panic, [], rs, r)

/-- `poll_read`, io_impl.rs:49-96. -/
def pollRead (A : Aead) (s : ReadStream × ρ) (want : Nat) : Poll Unit × Bytes × ReadStream × ρ :=
  let (rs, r) := s
  match rs.fut with
  | some _ => pollFutRead R A rs r want
  | none =>
    let got := rs.remaining.take want
    let rs := { rs with remaining := rs.remaining.drop want }
    if got.length < want then
      let (p, bs, s) := pollFutRead R A { rs with fut := some (.reading []) } r (want - got.length)
      (p, got ++ bs, s)
    else (.ready (.ok ()), got, rs, r)

/-- An encrypted read half over the transport `R`: `EncryptedReadStream<T>`, mod.rs:93-98, io_impl.rs:48-96. -/
def encryptedR (A : Aead) : ReadT (ReadStream × ρ) where
  pollRead := pollRead R A
  base s := R.base s.2
  setBase s b := (s.1, R.setBase s.2 b)

/-- tokio's `read_exact` and `read_u64` etc., driven to completion: they are polled again when they have been woken, else never (`hang`). Each woken poll uses up an answer of the socket; `fuel` is
more than there are. -/
def drive (int : Bool) (n : Nat) : Nat → Bytes → ρ → Outcome (Bytes × ρ)
  | 0, _, _ => .hang
  | fuel + 1, got, r =>
    match fill R int n got r with
    | .done got r => .ok (got, r)
    | .pending true got r => drive int n fuel got r
    | .pending false _ _ => .hang
    | .fail e _ => .err (.io e)
    | .panic _ => .panic

/-- The transport as a source of bytes for `Event::from_async_read`. -/
def source : Source ρ where
  readExact n r := drive R false n ((R.base r).chunks.length + 1) [] r
  readInt n r := drive R true n ((R.base r).chunks.length + 1) [] r

end

/-- The state of `n` encrypted read halves over a socket; the outermost first. -/
def RState : Nat → Type
  | 0 => Script
  | n + 1 => ReadStream × RState n

/-- `n` encrypted layers over a socket. -/
def layersR (A : Aead) : (n : Nat) → ReadT (RState n)
  | 0 => socketR
  | n + 1 => encryptedR (layersR A n) A

/-! ### Sessions -/

/-- The session of one layer, for one direction: the key, and the number of packages that have been sent with it (an inner layer has carried the key exchanges of the outer layers). `log` (a history variable):
what has been encrypted. -/
structure Layer where
  key : Bytes
  start : Nat := 0
  log : List Encryption := []

/-- The write halves when all sessions have been set up; the outermost layer first. -/
def startW : (ls : List Layer) → WState ls.length
  | [] => ({} : Socket)
  | l :: ls => ({ enc := { key := l.key, count := UInt64.ofNat l.start, log := l.log } }, startW ls)

/-- The read halves of the peer. -/
def startR (sc : Script) : (ls : List Layer) → RState ls.length
  | [] => sc
  | l :: ls => ({ dec := { key := l.key, count := UInt64.ofNat l.start } }, startR sc ls)

end Bromine.Layers
