import Verif.Model.Layers
import Verif.Model.Handshake
/-
Setting up a connection with encrypted layers, from the socket: `EncryptedStream<EncryptedStream<TcpStream>>::protocol_connect` connects the inner stream, which does its own key exchange, and then does a key
exchange over it (protocol_impl.rs:33-44); `EncryptedListener<EncryptedListener<TcpListener>>::protocol_accept` does the same (lines 20-31). The key exchange is that of crypt_handling.rs:101-180 (Model/Handshake.lean has it
for a socket), over any transport.
-/
namespace Bromine.Layers
open Bromine CryptIO
open Bromine.Handshake (DH Keys)

/-- A future that sets up a connection, after a poll. `failed` and `panicked` keep the socket, to see what has been sent. -/
inductive Setup (σ τ ρ : Type) where
  | pending (woken : Bool) (s : σ)
  | done (w : τ) (r : ρ)
  | failed (e : Error) (sock : Socket)
  | panicked (sock : Socket)

/-- `EncryptedStream::new`, mod.rs:67-77, on the halves of the inner stream: the write half; -/
def newW {τ : Type} (secret : Bytes) (t : τ) : WriteStream × τ := ({ enc := { key := secret } }, t)

/-- the read half. -/
def newR {ρ : Type} (secret : Bytes) (r : ρ) : ReadStream × ρ := ({ dec := { key := secret } }, r)

/-- `EncryptedStream::update_key`, mod.rs:79-90 with crypt_handling.rs:63-75: the write half (see `CryptStream.updateKey`); -/
def rekeyW {τ : Type} (key : Bytes) (s : WriteStream × τ) : WriteStream × τ := ({ s.1 with enc := { key := key, log := s.1.enc.log } }, s.2)

/-- the read half. -/
def rekeyR {ρ : Type} (key : Bytes) (s : ReadStream × ρ) : ReadStream × ρ := ({ s.1 with dec := { key := key } }, s.2)

section
variable {τ ρ : Type} (W : WriteT τ Socket) (R : ReadT ρ) (A : Aead) (D : DH) (keys : Keys)

/-! ### Client -/

/-- Where the future of `from_client_key_exchange` (crypt_handling.rs:134-150) is. -/
inductive CliPhase (τ ρ : Type) where
  /-- line 135 with 167: the public key is being sent -/
  | sendPub (rem : Bytes) (w : τ) (r : ρ)
  /-- line 168 -/
  | flushPub (w : τ) (r : ρ)
  /-- line 136 with 154-159; `acc` is in the buffer -/
  | recvPub (acc : Bytes) (w : τ) (r : ρ)
  /-- line 145; `got` is in the buffer -/
  | recvSecret (got : Bytes) (w : WriteStream × τ) (r : ReadStream × ρ)

/-- Lines 144-149. -/
def cRecvSecret (got : Bytes) (w : WriteStream × τ) (r : ReadStream × ρ) : Setup (CliPhase τ ρ) (WriteStream × τ) (ReadStream × ρ) :=
  match fill (encryptedR R A) false 32 got r with
  | .done got r => .done (rekeyW got w) (rekeyR got r)
  | .pending b got r => .pending b (.recvSecret got w r)
  | .fail e _ => .failed (.io e) (W.base w.2)
  | .panic _ => .panicked (W.base w.2)

/-- Lines 136-143. -/
def cRecvPub (acc : Bytes) (w : τ) (r : ρ) : Setup (CliPhase τ ρ) (WriteStream × τ) (ReadStream × ρ) :=
  match fill R false 32 acc r with
  | .done other r =>
    if keys.refuses D other then .failed (.unknownPeer other) (W.base w)
    else cRecvSecret W R A [] (newW (D.dh keys.secret other) w) (newR (D.dh keys.secret other) r)
  | .pending b acc r => .pending b (.recvPub acc w r)
  | .fail e _ => .failed (.io e) (W.base w)
  | .panic _ => .panicked (W.base w)

/-- Line 168. -/
def cFlushPub (w : τ) (r : ρ) : Setup (CliPhase τ ρ) (WriteStream × τ) (ReadStream × ρ) :=
  match W.pollFlush w with
  | (.ready (.ok _), w) => cRecvPub W R A D keys [] w r
  | (.ready (.error e), w) => .failed (.io e) (W.base w)
  | (.pending b, w) => .pending b (.flushPub w r)
  | (.panic, w) => .panicked (W.base w)

/-- Lines 135 and 162-167. -/
def cSendPub (rem : Bytes) (w : τ) (r : ρ) : Setup (CliPhase τ ρ) (WriteStream × τ) (ReadStream × ρ) :=
  match writeAll W w rem with
  | (.ready (.ok _), _, w) => cFlushPub W R A D keys w r
  | (.ready (.error e), _, w) => .failed (.io e) (W.base w)
  | (.pending b, rem, w) => .pending b (.sendPub rem w r)
  | (.panic, _, w) => .panicked (W.base w)

/-- One poll of `from_client_key_exchange`, crypt_handling.rs:134-150. -/
def cliPoll : CliPhase τ ρ → Setup (CliPhase τ ρ) (WriteStream × τ) (ReadStream × ρ)
  | .sendPub rem w r => cSendPub W R A D keys rem w r
  | .flushPub w r => cFlushPub W R A D keys w r
  | .recvPub acc w r => cRecvPub W R A D keys acc w r
  | .recvSecret got w r => cRecvSecret W R A got w r

/-- The write half of the transport below. -/
def CliPhase.writer : CliPhase τ ρ → τ
  | .sendPub _ w _ | .flushPub w _ | .recvPub _ w _ => w
  | .recvSecret _ w _ => w.2

/-- The same phase with another socket at the bottom. -/
def CliPhase.setBase (b : Socket) : CliPhase τ ρ → CliPhase τ ρ
  | .sendPub rem w r => .sendPub rem (W.setBase w b) r
  | .flushPub w r => .flushPub (W.setBase w b) r
  | .recvPub acc w r => .recvPub acc (W.setBase w b) r
  | .recvSecret got w r => .recvSecret got (w.1, W.setBase w.2 b) r

/-! ### Server -/

/-- Where the future of `from_server_key_exchange` (crypt_handling.rs:109-126) is. -/
inductive SrvPhase (τ ρ : Type) where
  /-- line 110 with 154-159; `acc` is in the buffer -/
  | recvPub (acc : Bytes) (w : τ) (r : ρ)
  /-- line 116 with 167 -/
  | sendPub (other rem : Bytes) (w : τ) (r : ρ)
  /-- line 168 -/
  | flushPub (other : Bytes) (w : τ) (r : ρ)
  /-- line 120 -/
  | writeSecret (rem : Bytes) (w : WriteStream × τ) (r : ReadStream × ρ)
  /-- line 121 -/
  | flushSecret (w : WriteStream × τ) (r : ReadStream × ρ)

variable (fresh : Bytes)

/-- Lines 121-125. -/
def sFlushSecret (w : WriteStream × τ) (r : ReadStream × ρ) : Setup (SrvPhase τ ρ) (WriteStream × τ) (ReadStream × ρ) :=
  match (encryptedW W A).pollFlush w with
  | (.ready (.ok _), w) => .done (rekeyW fresh w) (rekeyR fresh r)
  | (.ready (.error e), w) => .failed (.io e) (W.base w.2)
  | (.pending b, w) => .pending b (.flushSecret w r)
  | (.panic, w) => .panicked (W.base w.2)

/-- Line 120. -/
def sWriteSecret (rem : Bytes) (w : WriteStream × τ) (r : ReadStream × ρ) : Setup (SrvPhase τ ρ) (WriteStream × τ) (ReadStream × ρ) :=
  match writeAll (encryptedW W A) w rem with
  | (.ready (.ok _), _, w) => sFlushSecret W A fresh w r
  | (.ready (.error e), _, w) => .failed (.io e) (W.base w.2)
  | (.pending b, rem, w) => .pending b (.writeSecret rem w r)
  | (.panic, _, w) => .panicked (W.base w.2)

/-- Line 168, then lines 117-119. `fresh`: what `generate_secret` (174-180) returns. -/
def sFlushPub (other : Bytes) (w : τ) (r : ρ) : Setup (SrvPhase τ ρ) (WriteStream × τ) (ReadStream × ρ) :=
  match W.pollFlush w with
  | (.ready (.ok _), w) => sWriteSecret W A fresh fresh (newW (D.dh keys.secret other) w) (newR (D.dh keys.secret other) r)
  | (.ready (.error e), w) => .failed (.io e) (W.base w)
  | (.pending b, w) => .pending b (.flushPub other w r)
  | (.panic, w) => .panicked (W.base w)

/-- Line 116 and 162-167. -/
def sSendPub (other rem : Bytes) (w : τ) (r : ρ) : Setup (SrvPhase τ ρ) (WriteStream × τ) (ReadStream × ρ) :=
  match writeAll W w rem with
  | (.ready (.ok _), _, w) => sFlushPub W A D keys fresh other w r
  | (.ready (.error e), _, w) => .failed (.io e) (W.base w)
  | (.pending b, rem, w) => .pending b (.sendPub other rem w r)
  | (.panic, _, w) => .panicked (W.base w)

/-- Lines 110-115. -/
def sRecvPub (acc : Bytes) (w : τ) (r : ρ) : Setup (SrvPhase τ ρ) (WriteStream × τ) (ReadStream × ρ) :=
  match fill R false 32 acc r with
  | .done other r =>
    if keys.refuses D other then .failed (.unknownPeer other) (W.base w)
    else sSendPub W A D keys fresh other (D.pub keys.secret) w r
  | .pending b acc r => .pending b (.recvPub acc w r)
  | .fail e _ => .failed (.io e) (W.base w)
  | .panic _ => .panicked (W.base w)

/-- One poll of `from_server_key_exchange`, crypt_handling.rs:109-126. -/
def srvPoll : SrvPhase τ ρ → Setup (SrvPhase τ ρ) (WriteStream × τ) (ReadStream × ρ)
  | .recvPub acc w r => sRecvPub W R A D keys fresh acc w r
  | .sendPub other rem w r => sSendPub W A D keys fresh other rem w r
  | .flushPub other w r => sFlushPub W A D keys fresh other w r
  | .writeSecret rem w r => sWriteSecret W A fresh rem w r
  | .flushSecret w r => sFlushSecret W A fresh w r

/-- The write half of the transport below. -/
def SrvPhase.writer : SrvPhase τ ρ → τ
  | .recvPub _ w _ | .sendPub _ _ w _ | .flushPub _ w _ => w
  | .writeSecret _ w _ | .flushSecret w _ => w.2

/-- The same phase with another socket at the bottom. -/
def SrvPhase.setBase (b : Socket) : SrvPhase τ ρ → SrvPhase τ ρ
  | .recvPub acc w r => .recvPub acc (W.setBase w b) r
  | .sendPub other rem w r => .sendPub other rem (W.setBase w b) r
  | .flushPub other w r => .flushPub other (W.setBase w b) r
  | .writeSecret rem w r => .writeSecret rem (w.1, W.setBase w.2 b) r
  | .flushSecret w r => .flushSecret (w.1, W.setBase w.2 b) r

end

/-! ### All layers -/

/-- A future that sets up a connection with halves of the types `τ` and `ρ`. `init sc`: when it is made; `sc`: all that the socket will answer to reads. `sock`, `setSock`: the socket that it writes to. -/
structure Connecting (τ ρ : Type) where
  State : Type
  init : Script → State
  poll : State → Setup State τ ρ
  sock : State → Socket
  setSock : State → Socket → State

/-- The socket has been connected (`TcpStream::connect` and `TcpListener::accept`, tcp.rs:33-37 and 54-64, unix_socket.rs, are in Model/Protocol.lean). -/
def connected : Connecting Socket Script where
  State := Socket × Script
  init sc := ({}, sc)
  poll s := .done s.1 s.2
  sock s := s.1
  setSock s b := (b, s.2)

/-- An exchange that follows another set-up in the same future: `inner.await?`, then `start`. -/
def Connecting.andThen {τ ρ φ τ' ρ' : Type} (c : Connecting τ ρ) (start : τ → ρ → Setup φ τ' ρ') (next : φ → Setup φ τ' ρ') (sock : φ → Socket) (set : Socket → φ → φ) : Connecting τ' ρ' where
  State := c.State ⊕ φ
  init sc := .inl (c.init sc)
  poll
    | .inl s =>
      match c.poll s with
      | .pending b s => .pending b (.inl s)
      | .failed e k => .failed e k
      | .panicked k => .panicked k
      | .done w r =>
        match start w r with
        | .pending b x => .pending b (.inr x)
        | .done w r => .done w r
        | .failed e k => .failed e k
        | .panicked k => .panicked k
    | .inr x =>
      match next x with
      | .pending b x => .pending b (.inr x)
      | .done w r => .done w r
      | .failed e k => .failed e k
      | .panicked k => .panicked k
  sock
    | .inl s => c.sock s
    | .inr x => sock x
  setSock
    | .inl s, b => .inl (c.setSock s b)
    | .inr x, b => .inr (set b x)

/-- `EncryptedStream<T>::protocol_connect`, protocol_impl.rs:37-43. -/
def clientLayer {τ ρ : Type} (W : WriteT τ Socket) (R : ReadT ρ) (A : Aead) (D : DH) (keys : Keys) (c : Connecting τ ρ) : Connecting (WriteStream × τ) (ReadStream × ρ) :=
  c.andThen (fun w r => cSendPub W R A D keys (D.pub keys.secret) w r) (cliPoll W R A D keys) (fun x => W.base x.writer) (fun b x => x.setBase W b)

/-- `EncryptedListener<T>::protocol_accept`, protocol_impl.rs:26-31. -/
def serverLayer {τ ρ : Type} (W : WriteT τ Socket) (R : ReadT ρ) (A : Aead) (D : DH) (keys : Keys) (fresh : Bytes) (c : Connecting τ ρ) : Connecting (WriteStream × τ) (ReadStream × ρ) :=
  c.andThen (fun w r => sRecvPub W R A D keys fresh [] w r) (srvPoll W R A D keys fresh) (fun x => W.base x.writer) (fun b x => x.setBase W b)

/-- What the two sides bring to the key exchange of one layer; `fresh`: the key that the server will generate. -/
structure Exchange where
  client : Keys
  server : Keys
  fresh : Bytes

/-- The client connects; the outermost layer is the first of the list. -/
def client (A : Aead) (D : DH) : (xs : List Exchange) → Connecting (WState xs.length) (RState xs.length)
  | [] => connected
  | x :: xs => clientLayer (layersW A xs.length) (layersR A xs.length) A D x.client (client A D xs)

/-- The server accepts. -/
def server (A : Aead) (D : DH) : (xs : List Exchange) → Connecting (WState xs.length) (RState xs.length)
  | [] => connected
  | x :: xs => serverLayer (layersW A xs.length) (layersR A xs.length) A D x.server x.fresh (server A D xs)

/-- A sequence of polls, each with the answers that the socket has for writes; the future is not polled again when it is ready. -/
def Connecting.run {τ ρ : Type} (c : Connecting τ ρ) : Setup c.State τ ρ → List (List IoAns) → Setup c.State τ ρ
  | .pending _ s, as :: ps => c.run (c.poll (c.setSock s { c.sock s with answers := as })) ps
  | x, _ => x

/-- The future is made and polled. -/
def Connecting.runs {τ ρ : Type} (c : Connecting τ ρ) (sc : Script) (ps : List (List IoAns)) : Setup c.State τ ρ := c.run (.pending true (c.init sc)) ps

/-- All bytes that have gone to the wire. `sock`: the socket of the future; `base`: that under the halves that it gives. -/
def Setup.sent {σ τ ρ : Type} (sock : σ → Socket) (base : τ → Socket) : Setup σ τ ρ → Bytes
  | .pending _ s => (sock s).wire
  | .done w _ => (base w).wire
  | .failed _ k => k.wire
  | .panicked k => k.wire

/-- The future is ready, with a connection. -/
def Setup.isDone {σ τ ρ : Type} : Setup σ τ ρ → Bool
  | .done _ _ => true
  | _ => false

/-- The client after a sequence of polls; `sc`: what its socket answers to reads. -/
def clientRuns (A : Aead) (D : DH) (xs : List Exchange) (sc : Script) (ps : List (List IoAns)) : Setup (client A D xs).State (WState xs.length) (RState xs.length) := (client A D xs).runs sc ps

/-- The server after a sequence of polls. -/
def serverRuns (A : Aead) (D : DH) (xs : List Exchange) (sc : Script) (ps : List (List IoAns)) : Setup (server A D xs).State (WState xs.length) (RState xs.length) := (server A D xs).runs sc ps

/-- What the client has sent. -/
def clientSent (A : Aead) (D : DH) (xs : List Exchange) (sc : Script) (ps : List (List IoAns)) : Bytes := (clientRuns A D xs sc ps).sent (client A D xs).sock (layersW A xs.length).base

/-- What the server has sent. -/
def serverSent (A : Aead) (D : DH) (xs : List Exchange) (sc : Script) (ps : List (List IoAns)) : Bytes := (serverRuns A D xs sc ps).sent (server A D xs).sock (layersW A xs.length).base

end Bromine.Layers
