import Verif.Spec.LayerServer
import Verif.Model.Server
/-
C83, one layer: what it means that a server whose listener has one encrypted layer, and an encrypted server, are the same.
-/
namespace Bromine.Spec
open Bromine CryptIO Layers LayerServer
open Bromine.Handshake (DH Keys)

/-- The session of a connection with one layer. -/
def session {k : Keys} (c : Served [k]) : CryptStream :=
  let w : WriteStream × Socket := c.w
  let r : ReadStream × Script := c.r
  { read := r.1, write := w.1 }

/-- Both are at the same place; in a key exchange: with the same client, which has been sent the same. -/
def SamePlace {A : Aead} {D : DH} {k : Keys} : LayerServer.Phase A D [k] → Server.Phase → Prop
  | .binding, p => p = .binding
  | .accepting, p => p = .accepting
  | .settingUp v st, p => ∃ side, p = .exchanging v.id (v.fresh 0) side ∧ side.got = v.script.bytes ∧ side.sent = ((server A D (v.exchanges [k])).sock st).wire
  | .ended r, p => p = .ended r

/-- Both are at the same place, the same clients wait, and the same are served, with the same sessions. -/
structure SameState {A : Aead} {D : DH} {k : Keys} (s : LayerServer.State A D [k]) (t : Server.State) : Prop where
  place : SamePlace s.phase t.phase
  backlog : t.backlog = s.backlog.map Visitor.id
  served : t.served = s.served.map fun c => (c.visitor.id, some (session c))

/-- What the surroundings of a server do: clients connect, binding and accepting the socket succeed or fail, polls get their answers. -/
inductive Outer where
  | bind (r : Except Error Unit)
  | connect (id : Nat)
  | accept
  | acceptFails (e : IoErr)
  | poll (as : List CryptIO.IoAns)

def outerL : LayerServer.Op → Outer
  | .bind r => .bind r
  | .connect v => .connect v.id
  | .accept => .accept
  | .acceptFails e => .acceptFails e
  | .poll as => .poll as

/-- (Bytes that arrive, and the end of a connection, are in the script of a client of the layered server.) -/
def outer : Server.Op → Option Outer
  | .bind r => some (.bind r)
  | .connect id => some (.connect id)
  | .accept _ => some .accept
  | .acceptFails e => some (.acceptFails e)
  | .exchange (.poll _ as) => some (.poll as)
  | .exchange _ => none

/-- Not a poll: what a listener without layers depends on. -/
def Outer.matters : Outer → Bool
  | .poll _ => false
  | _ => true

/-- A listener without layers and a plain server are at the same place. (The layered server has one more place: it has accepted a client, and serves it with the next poll. The plain server serves it at once.) -/
def PlainPlace {A : Aead} {D : DH} : LayerServer.Phase A D [] → Server.Phase → Prop
  | .binding, p => p = .binding
  | .accepting, p => p = .accepting
  | .settingUp _ _, p => p = .accepting
  | .ended r, p => p = .ended r

/-- Both are at the same place, the same clients wait, and the same are served, in the same order, without encryption. -/
structure PlainState {A : Aead} {D : DH} (s : LayerServer.State A D []) (t : Server.State) : Prop where
  place : PlainPlace s.phase t.phase
  backlog : t.backlog = s.backlog.map Visitor.id
  served : t.served = (s.served.map (fun c => c.visitor.id) ++ (guest s).map Visitor.id).map fun c => (c, none)

end Bromine.Spec
