import Verif.Model.LayerExchange
import Verif.Spec.Layers
import Verif.Spec.Handshake
/-
What goes over a connection while its encrypted layers are set up.
-/
namespace Bromine.Spec
open Layers (Layer Exchange WState RState)
open Bromine.Handshake (DH)

/-- The layers after `k` more packages. -/
def afterPackages (k : Nat) (ls : List Layer) : List Layer := ls.map fun l => { l with start := l.start + k }

/-- The sessions from the client to the server when all layers are set up, the outermost first. Each has the key that the server made, and has carried one message (the public key of the client) for every layer around it. -/
def clientLayers : List Exchange → List Layer
  | [] => []
  | x :: xs => { key := x.fresh } :: afterPackages 1 (clientLayers xs)

/-- The sessions from the server to the client: they have carried two messages for every layer around, the public key and the key of the session. -/
def serverLayers : List Exchange → List Layer
  | [] => []
  | x :: xs => { key := x.fresh } :: afterPackages 2 (serverLayers xs)

/-- `bs` is all that the client sends: its public key for the innermost layer in clear, and for every other layer through all layers inside. -/
def ClientSends (A : Aead) (D : DH) : List Exchange → Bytes → Prop
  | [], bs => bs = []
  | x :: xs, bs => ∃ before pub, ClientSends A D xs before ∧ Nested A (clientLayers xs) 0 (D.pub x.client.secret) pub ∧ bs = before ++ pub

/-- `bs` is all that the server sends: for each layer, through all layers inside, its public key, and then the key of the session in a package with the shared secret. -/
def ServerSends (A : Aead) (D : DH) : List Exchange → Bytes → Prop
  | [], bs => bs = []
  | x :: xs, bs => ∃ before pub pkg key, ServerSends A D xs before ∧ Nested A (serverLayers xs) 0 (D.pub x.server.secret) pub ∧ Package A (D.dh x.server.secret (D.pub x.client.secret)) 0 x.fresh pkg ∧
      Nested A (serverLayers xs) 1 pkg key ∧ bs = before ++ pub ++ key

/-- The write halves are those of these sessions: with the key and the number of the next package, and nothing in their buffers. -/
def WriteHalves : (n : Nat) → List Layer → WState n → Prop
  | 0, [], _ => True
  | n + 1, l :: ls, (ws, t) => (∃ log, ws = { enc := { key := l.key, count := UInt64.ofNat l.start, log := log } }) ∧ WriteHalves n ls t
  | _, _, _ => False

/-- All bytes that a socket will have received. -/
def scriptBytes (sc : Script) : Bytes := (sc.chunks.map Chunk.bytes).flatten

/-- The read halves are those of these sessions; `rest` is what the socket has received and nobody has read; `closed`: the connection will be closed after it. -/
def ReadHalves (closed : Bool) (rest : Bytes) : (n : Nat) → List Layer → RState n → Prop
  | 0, [], sc => sc.closed = closed ∧ scriptBytes sc = rest
  | n + 1, l :: ls, (rs, t) => rs = { dec := { key := l.key, count := UInt64.ofNat l.start } } ∧ ReadHalves closed rest n ls t
  | _, _, _ => False

/-- `bs` can have been received from a peer that has sent `sent` in the set-up and can send more when it is done with it. -/
def ReceivedFrom (sent : Bytes) (done : Bool) (bs : Bytes) : Prop := bs <+: sent ∨ (done = true ∧ sent <+: bs)

/-- The client admits the server in all layers: it allows unknown peers, or knows the public key. -/
def ClientAdmits (D : DH) (xs : List Exchange) : Prop := ∀ x ∈ xs, Trusts D x.client (D.pub x.server.secret)

/-- The server admits the client in all layers. -/
def ServerAdmits (D : DH) (xs : List Exchange) : Prop := ∀ x ∈ xs, Trusts D x.server (D.pub x.client.secret)

/-- The keys that the servers make have 32 bytes, and the lengths of all packages fit into 32 bits. -/
def ExchangeSized (xs : List Exchange) : Prop := (∀ x ∈ xs, x.fresh.length = 32) ∧ 68 + 20 * xs.length < 2 ^ 32

/-- Client and server set up the layers `xs` with each other: in any order and with any pauses, each has received nothing else than what the other has sent. -/
structure Exchanging (A : Aead) (D : DH) (xs : List Exchange) (scC scS : Script) (psC psS : List (List CryptIO.IoAns)) : Prop where
  sized : ExchangeSized xs
  toClient : ReceivedFrom (Layers.serverSent A D xs scS psS) (Layers.serverRuns A D xs scS psS).isDone (scriptBytes scC)
  toServer : ReceivedFrom (Layers.clientSent A D xs scC psC) (Layers.clientRuns A D xs scC psC).isDone (scriptBytes scS)

/-- In a poll with these answers, the socket takes at least one byte. -/
def takesSome : List CryptIO.IoAns → Bool
  | .ready (_ + 1) :: _ => true
  | _ => false

/-- The socket does not fail. -/
def SocketWorks (as : List CryptIO.IoAns) : Prop := .ready 0 ∉ as ∧ ∀ e, .fail e ∉ as

end Bromine.Spec
