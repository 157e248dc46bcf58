import Verif.Model.CryptIO
/-
src/protocol/encrypted/crypt_handling.rs:101-180: the key exchange of an encrypted connection, poll by poll.

X25519 is a parameter `DH` (crate x25519_dalek).
-/
namespace Bromine.Handshake
open Bromine CryptIO

/-- X25519: `PublicKey::from(&StaticSecret)` and `StaticSecret::diffie_hellman(&PublicKey)`. The laws hold of X25519 as functions; they are
not cryptographic assumptions. -/
structure DH where
  pub : (secret : Bytes) → Bytes
  dh : (secret other : Bytes) → Bytes
  comm : ∀ a b, dh a (pub b) = dh b (pub a)
  pub_len : ∀ a, (pub a).length = 32
  dh_len : ∀ a p, (dh a p).length = 32
  /-- `PartialEq` of `PublicKey`: it compares the points, not the 32 bytes (a point has several encodings: the top bit is ignored, and the coordinate is
  taken modulo 2^255 - 19) -/
  same : Bytes → Bytes → Bool
  same_equiv : Equivalence fun p q => same p q = true
  same_dh : ∀ a p q, same p q = true → dh a p = dh a q

/-- `Keys`, mod.rs:26-31. Public keys are given by their 32 bytes. -/
structure Keys where
  secret : Bytes
  knownPeers : List Bytes := []
  allowUnknown : Bool := false

/-- The keys of `EncryptionOptions::default()`, mod.rs:33-48; `random` are the bytes of the random generator. -/
def Keys.default (random : Bytes) : Keys := { knownPeers := [], allowUnknown := false, secret := random }

/-- The check in crypt_handling.rs:113-115 and 139-141. -/
def Keys.refuses (D : DH) (k : Keys) (other : Bytes) : Bool := !k.allowUnknown && !k.knownPeers.any fun p => D.same p other

/-! ### Server -/

/-- Where the future of `from_server_key_exchange` (crypt_handling.rs:109-126) is. -/
inductive SPhase where
  /-- `receive_public_key`, line 110 with 154-159; `acc` has been read -/
  | recvPub (acc : Bytes)
  /-- `send_public_key`, line 116 with 162-171: `write_all`, `rem` is left to be written -/
  | sendPub (other rem : Bytes)
  /-- the `flush` of `send_public_key`, line 168 -/
  | flushPub (other : Bytes)
  /-- `stream.write_all(&permanent_secret)`, line 120 -/
  | writeSecret (st : CryptStream)
  /-- `stream.flush()`, line 121 -/
  | flushSecret (st : CryptStream)
  | done (st : CryptStream)
  | failed (e : Error)
  | panicked
deriving DecidableEq, Repr

/-- One poll of `read_exact` into the 32 byte buffer of `receive_public_key`, 154-159, when `acc` has been read; the transport hands out
`inp`, and then it is pending, or at its end if `closed`. -/
inductive PubPoll where
  | pending (acc : Bytes)
  | eof
  | got (key rest : Bytes)
deriving DecidableEq, Repr

def pollPub (closed : Bool) (acc inp : Bytes) : PubPoll :=
  if 32 ≤ acc.length + inp.length then .got (acc ++ inp.take (32 - acc.length)) (inp.drop (32 - acc.length))
  else if closed then .eof
  else .pending (acc ++ inp)

/-- What a poll leads to: the phase, the input that was not taken, the bytes sent. -/
structure Polled (Φ : Type) where
  phase : Φ
  rest : Bytes := []
  sent : Bytes := []

/-- Line 121-125: flush, then `update_key`. -/
def sFlushSecret (A : Aead) (fresh : Bytes) (st : CryptStream) (as : List IoAns) (rest sent : Bytes) : Polled SPhase :=
  let r := st.write.pollFlush A as
  let st := { st with write := r.ws }
  let sent := sent ++ r.wire
  match r.poll with
  | .pending _ => { phase := .flushSecret st, rest := rest, sent := sent }
  | .panic => { phase := .panicked, rest := rest, sent := sent }
  | .ready (.error e) => { phase := .failed (.io e), rest := rest, sent := sent }
  | .ready (.ok _) => { phase := .done (st.updateKey fresh), rest := rest, sent := sent }

/-- Line 120. `fresh` is what `generate_secret` (174-180) returns: a SHA-256 digest of random bytes. -/
def sWriteSecret (A : Aead) (fresh : Bytes) (st : CryptStream) (as : List IoAns) (rest sent : Bytes) : Polled SPhase :=
  let r := st.write.pollWrite A fresh as
  let st := { st with write := r.ws }
  let sent := sent ++ r.wire
  match r.poll with
  | .pending _ => { phase := .writeSecret st, rest := rest, sent := sent }
  | .panic => { phase := .panicked, rest := rest, sent := sent }
  | .ready (.error e) => { phase := .failed (.io e), rest := rest, sent := sent }
  | .ready (.ok _) => sFlushSecret A fresh st r.rest rest sent

/-- The `flush` in line 168, then lines 117-120. -/
def sFlushPub (A : Aead) (D : DH) (keys : Keys) (fresh other : Bytes) (as : List IoAns) (rest sent : Bytes) : Polled SPhase :=
  match as with
  | [] => { phase := .flushPub other, rest := rest, sent := sent }
  | .pending :: _ => { phase := .flushPub other, rest := rest, sent := sent }
  | .fail e :: _ => { phase := .failed (.io e), rest := rest, sent := sent }
  | .ready _ :: as => sWriteSecret A fresh (CryptStream.new (D.dh keys.secret other)) as rest sent

/-- The `write_all` in line 167. -/
def sSendPub (A : Aead) (D : DH) (keys : Keys) (fresh other rem : Bytes) (as : List IoAns) (rest : Bytes) : Polled SPhase :=
  match pollWriteAll rem as with
  | (none, w, rem, _) => { phase := .sendPub other rem, rest := rest, sent := w }
  | (some (.error e), w, _, _) => { phase := .failed (.io e), rest := rest, sent := w }
  | (some (.ok _), w, _, as) => sFlushPub A D keys fresh other as rest w

/-- One poll of `from_server_key_exchange`, 109-126. -/
def serverPoll (A : Aead) (D : DH) (keys : Keys) (fresh : Bytes) (ph : SPhase) (closed : Bool) (inp : Bytes) (as : List IoAns) : Polled SPhase :=
  match ph with
  | .recvPub acc =>
    match pollPub closed acc inp with
    | .pending acc => { phase := .recvPub acc }
    | .eof => { phase := .failed (.io .unexpectedEof) }
    | .got other rest =>
      if keys.refuses D other then { phase := .failed (.unknownPeer other), rest := rest }
      else sSendPub A D keys fresh other (D.pub keys.secret) as rest
  | .sendPub other rem => sSendPub A D keys fresh other rem as inp
  | .flushPub other => sFlushPub A D keys fresh other as inp []
  | .writeSecret st => sWriteSecret A fresh st as inp []
  | .flushSecret st => sFlushSecret A fresh st as inp []
  | ph => { phase := ph, rest := inp }

/-! ### Client -/

/-- Where the future of `from_client_key_exchange` (crypt_handling.rs:134-150) is. -/
inductive CPhase where
  /-- `send_public_key`, line 135 -/
  | sendPub (rem : Bytes)
  | flushPub
  /-- `receive_public_key`, line 136 -/
  | recvPub (acc : Bytes)
  /-- `stream.read_exact(&mut key_buf)`, line 145; `got` is in the buffer -/
  | recvSecret (st : CryptStream) (got : Bytes)
  | done (st : CryptStream)
  | failed (e : Error)
  | panicked
deriving DecidableEq, Repr

/-- Bytes as chunks of a transport, and back. -/
def toChunks : Bytes → List Chunk
  | [] => []
  | b :: bs => [.data b bs]

/-- Lines 144-149. The rest of the input is what the package reader has not taken. -/
def cRecvSecret (A : Aead) (st : CryptStream) (got : Bytes) (closed : Bool) (inp sent : Bytes) : Polled CPhase :=
  let r := st.read.pollRead A closed (32 - got.length) (toChunks inp)
  let st := { st with read := r.rs }
  let got := got ++ r.filled
  let rest := (r.chunks.map Chunk.bytes).flatten
  match r.poll with
  | .pending _ => { phase := .recvSecret st got, rest := rest, sent := sent }
  | .panic => { phase := .panicked, rest := rest, sent := sent }
  | .ready (.error e) => { phase := .failed (.io e), rest := rest, sent := sent }
  | .ready (.ok _) => { phase := .done (st.updateKey got), rest := rest, sent := sent }

/-- Lines 136-143. -/
def cRecvPub (A : Aead) (D : DH) (keys : Keys) (acc : Bytes) (closed : Bool) (inp sent : Bytes) : Polled CPhase :=
  match pollPub closed acc inp with
  | .pending acc => { phase := .recvPub acc, sent := sent }
  | .eof => { phase := .failed (.io .unexpectedEof), sent := sent }
  | .got other rest =>
    if keys.refuses D other then { phase := .failed (.unknownPeer other), rest := rest, sent := sent }
    else cRecvSecret A (CryptStream.new (D.dh keys.secret other)) [] closed rest sent

/-- The `flush` in line 168. -/
def cFlushPub (A : Aead) (D : DH) (keys : Keys) (closed : Bool) (as : List IoAns) (inp sent : Bytes) : Polled CPhase :=
  match as with
  | [] => { phase := .flushPub, rest := inp, sent := sent }
  | .pending :: _ => { phase := .flushPub, rest := inp, sent := sent }
  | .fail e :: _ => { phase := .failed (.io e), rest := inp, sent := sent }
  | .ready _ :: _ => cRecvPub A D keys [] closed inp sent

/-- One poll of `from_client_key_exchange`, 134-150. -/
def clientPoll (A : Aead) (D : DH) (keys : Keys) (ph : CPhase) (closed : Bool) (inp : Bytes) (as : List IoAns) : Polled CPhase :=
  match ph with
  | .sendPub rem =>
    match pollWriteAll rem as with
    | (none, w, rem, _) => { phase := .sendPub rem, rest := inp, sent := w }
    | (some (.error e), w, _, _) => { phase := .failed (.io e), rest := inp, sent := w }
    | (some (.ok _), w, _, as) => cFlushPub A D keys closed as inp w
  | .flushPub => cFlushPub A D keys closed as inp []
  | .recvPub acc => cRecvPub A D keys acc closed inp []
  | .recvSecret st got => cRecvSecret A st got closed inp []
  | ph => { phase := ph, rest := inp }

/-! ### One side, with an arbitrary peer -/

/-- A side of the exchange. `inbox`: bytes in the receive buffer of the socket. `closed`: no further bytes will arrive. History variables:
`sent`, all bytes sent; `got`, all bytes that have arrived. -/
structure Side (Φ : Type) where
  phase : Φ
  inbox : Bytes := []
  closed : Bool := false
  sent : Bytes := []
  got : Bytes := []

/-- What can happen to one side. -/
inductive Op where
  /-- bytes of the peer arrive -/
  | arrive (bs : Bytes)
  /-- the peer closes the connection -/
  | close
  /-- the future is polled; the transport hands out the next `k` bytes of the inbox (how it divides them does not matter, as the
  readers loop until they are pending) and has the answers `as` for writes and flushes -/
  | poll (k : Nat) (as : List IoAns)

/-- One step of a side with the poll function `f`. Nothing arrives after the peer has closed. -/
def Side.step {Φ : Type} (f : Φ → Bool → Bytes → List IoAns → Polled Φ) (s : Side Φ) : Op → Option (Side Φ)
  | .arrive bs => if s.closed then none else some { s with inbox := s.inbox ++ bs, got := s.got ++ bs }
  | .close => some { s with closed := true }
  | .poll k as =>
    let r := f s.phase (s.closed && decide (s.inbox.length ≤ k)) (s.inbox.take k) as
    some { s with phase := r.phase, inbox := r.rest ++ s.inbox.drop k, sent := s.sent ++ r.sent }

def Side.run {Φ : Type} (f : Φ → Bool → Bytes → List IoAns → Polled Φ) : Side Φ → List Op → Option (Side Φ)
  | s, [] => some s
  | s, op :: ops => (s.step f op).bind fun s => Side.run f s ops

/-- The server's side when the connection has been accepted. -/
def serverInit : Side SPhase := { phase := .recvPub [] }

/-- The client's side when the connection has been made. -/
def clientInit (D : DH) (keys : Keys) : Side CPhase := { phase := .sendPub (D.pub keys.secret) }

/-! ### Both sides -/

/-- A server and a client on an undisturbed connection: what one sends arrives at the other. `serverMore`, `clientMore` (history variables): the bytes that a side
has sent after it has completed the exchange. -/
structure Pair where
  server : Side SPhase
  client : Side CPhase
  serverMore : Bytes := []
  clientMore : Bytes := []

inductive PairOp where
  /-- the server is polled, see `Op.poll` -/
  | server (k : Nat) (as : List IoAns)
  | client (k : Nat) (as : List IoAns)
  /-- the server's end is closed (the future failed or was dropped) -/
  | closeServer
  | closeClient
  /-- the server has completed the exchange and sends bytes of the session, whether or not the client has completed it -/
  | moreServer (bs : Bytes)
  | moreClient (bs : Bytes)

/-- One step. The bytes that a side sends are put into the inbox of the other; the delay of the transport is in the `k` of the polls. -/
def Pair.step (A : Aead) (D : DH) (sk ck : Keys) (fresh : Bytes) (p : Pair) : PairOp → Option Pair
  | .server k as => do
    let s ← p.server.step (serverPoll A D sk fresh) (.poll k as)
    let new := s.sent.drop p.server.sent.length
    if new = [] then some { p with server := s } else
    let c ← p.client.step (clientPoll A D ck) (.arrive new)
    some { p with server := s, client := c }
  | .client k as => do
    let c ← p.client.step (clientPoll A D ck) (.poll k as)
    let new := c.sent.drop p.client.sent.length
    if new = [] then some { p with client := c } else
    let s ← p.server.step (serverPoll A D sk fresh) (.arrive new)
    some { p with server := s, client := c }
  | .closeServer => do
    let c ← p.client.step (clientPoll A D ck) .close
    some { p with client := c }
  | .closeClient => do
    let s ← p.server.step (serverPoll A D sk fresh) .close
    some { p with server := s }
  | .moreServer bs =>
    match p.server.phase with
    | .done _ => (p.client.step (clientPoll A D ck) (.arrive bs)).map fun c => { p with client := c, serverMore := p.serverMore ++ bs }
    | _ => none
  | .moreClient bs =>
    match p.client.phase with
    | .done _ => (p.server.step (serverPoll A D sk fresh) (.arrive bs)).map fun s => { p with server := s, clientMore := p.clientMore ++ bs }
    | _ => none

def Pair.run (A : Aead) (D : DH) (sk ck : Keys) (fresh : Bytes) : Pair → List PairOp → Option Pair
  | p, [] => some p
  | p, op :: ops => (p.step A D sk ck fresh op).bind fun p => Pair.run A D sk ck fresh p ops

def Pair.init (D : DH) (ck : Keys) : Pair := { server := serverInit, client := clientInit D ck }

/-- A toy key agreement (commutative), to show that the laws can be met: bytewise sum. -/
def toyDH : DH where
  pub a := (a ++ List.replicate 32 0).take 32
  dh a p := List.zipWith (· + ·) ((a ++ List.replicate 32 0).take 32) ((p ++ List.replicate 32 0).take 32)
  comm a b := by
    have h : ∀ x : Bytes, x.length = 32 → (x ++ List.replicate 32 0).take 32 = x := by
      intro x hx
      rw [List.take_append_of_le_length (by omega), List.take_of_length_le (by omega)]
    have hl : ∀ x : Bytes, ((x ++ List.replicate 32 0).take 32).length = 32 := by
      intro x
      rw [List.length_take, List.length_append, List.length_replicate]; omega
    rw [h _ (hl b), h _ (hl a)]
    exact List.zipWith_comm_of_comm (fun x y => UInt8.add_comm x y)
  pub_len a := by rw [List.length_take, List.length_append, List.length_replicate]; omega
  dh_len a p := by
    rw [List.length_zipWith, List.length_take, List.length_take, List.length_append, List.length_append, List.length_replicate]; omega
  same p q := decide ((p ++ List.replicate 32 0).take 32 = (q ++ List.replicate 32 0).take 32)
  same_equiv := ⟨fun _ => by simp, fun h => by simp_all, fun h h' => by simp_all⟩
  same_dh a p q h := by simp only [decide_eq_true_eq] at h; simp only [h]

end Bromine.Handshake
