import Verif.Model.LayerServer
import Verif.Spec.LayerPeer
/-
Servers with encrypted layers: who has connected, and which clients keep to the protocol.
-/
namespace Bromine.Spec
open Layers LayerServer
open Bromine.Handshake (DH Keys)

/-- The clients that have connected, in order. -/
def visitors (ops : List LayerServer.Op) : List Visitor := ops.filterMap fun | .connect v => some v | _ => none

/-- The client in the set-up. -/
def guest {A : Aead} {D : DH} {keys : List Keys} (s : LayerServer.State A D keys) : List Visitor :=
  match s.phase with
  | .settingUp v _ => [v]
  | _ => []

/-- The server generates keys of 32 bytes for this client. -/
def KeysSized (keys : List Keys) (v : Visitor) : Prop := ∀ i < keys.length, (v.fresh i).length = 32

/-- The client sends all that a client sends in the set-up, and perhaps more afterwards, at whatever time and in whatever pieces. -/
def SendsAll (A : Aead) (D : DH) (keys : List Keys) (v : Visitor) : Prop := ∃ out, ClientSends A D (v.exchanges keys) out ∧ out <+: scriptBytes v.script

/-- The client keeps to the protocol but falls silent before the end of the set-up, and does not close the connection. -/
def FallsSilent (A : Aead) (D : DH) (keys : List Keys) (v : Visitor) : Prop := ∃ out, ClientSends A D (v.exchanges keys) out ∧ scriptBytes v.script <+: out ∧ scriptBytes v.script ≠ out ∧ v.script.closed = false

/-- The server trusts the client in all layers. -/
def IsKnown (D : DH) (keys : List Keys) (v : Visitor) : Prop := ServerAdmits D (v.exchanges keys)

end Bromine.Spec
