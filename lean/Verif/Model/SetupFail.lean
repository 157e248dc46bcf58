import Verif.Model.ReadFail
import Verif.Model.LayerExchange
/-
Setting up a connection with encrypted layers over a socket that returns an error from a read. The code is that of Model/LayerExchange.lean (protocol_impl.rs:20-44, crypt_handling.rs:101-180); only the socket is another one.
-/
namespace Bromine.Layers
open Bromine CryptIO
open Bromine.Handshake (DH Keys)

/-- The socket has been connected (as `connected`); reads will give `sc.chunks`, then the error `e`, then what `after` says. -/
def connectedF (e : IoErr) (after : Script) : Connecting Socket FailScript where
  State := Socket × FailScript
  init sc := ({}, { chunks := sc.chunks, err := some e, after := after })
  poll s := .done s.1 s.2
  sock s := s.1
  setSock s b := (b, s.2)

/-- The client connects (as `client`). -/
def clientF (A : Aead) (D : DH) (e : IoErr) (after : Script) : (xs : List Exchange) → Connecting (WState xs.length) (FRState xs.length)
  | [] => connectedF e after
  | x :: xs => clientLayer (layersW A xs.length) (layersF A xs.length) A D x.client (clientF A D e after xs)

/-- The server accepts (as `server`). -/
def serverF (A : Aead) (D : DH) (e : IoErr) (after : Script) : (xs : List Exchange) → Connecting (WState xs.length) (FRState xs.length)
  | [] => connectedF e after
  | x :: xs => serverLayer (layersW A xs.length) (layersF A xs.length) A D x.server x.fresh (serverF A D e after xs)

/-- What the socket answers to reads: `chunks`, then an error, then `after`. -/
structure Failing where
  chunks : List Chunk
  err : IoErr
  after : Script := { chunks := [], closed := true }

/-- The client after a sequence of polls. -/
def clientRunsF (A : Aead) (D : DH) (xs : List Exchange) (f : Failing) (ps : List (List IoAns)) : Setup (clientF A D f.err f.after xs).State (WState xs.length) (FRState xs.length) :=
  (clientF A D f.err f.after xs).runs { chunks := f.chunks, closed := true } ps

/-- The server after a sequence of polls. -/
def serverRunsF (A : Aead) (D : DH) (xs : List Exchange) (f : Failing) (ps : List (List IoAns)) : Setup (serverF A D f.err f.after xs).State (WState xs.length) (FRState xs.length) :=
  (serverF A D f.err f.after xs).runs { chunks := f.chunks, closed := true } ps

/-- What the client has sent. -/
def clientSentF (A : Aead) (D : DH) (xs : List Exchange) (f : Failing) (ps : List (List IoAns)) : Bytes := (clientRunsF A D xs f ps).sent (clientF A D f.err f.after xs).sock (layersW A xs.length).base

/-- What the server has sent. -/
def serverSentF (A : Aead) (D : DH) (xs : List Exchange) (f : Failing) (ps : List (List IoAns)) : Bytes := (serverRunsF A D xs f ps).sent (serverF A D f.err f.after xs).sock (layersW A xs.length).base

end Bromine.Layers
