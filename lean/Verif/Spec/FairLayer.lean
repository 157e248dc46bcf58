import Verif.Spec.LayerServer
import Verif.Spec.FairServer
/-
Infinite executions of a server with encrypted layers, and what it means that they are scheduled fairly.
-/
namespace Bromine.Spec
open Layers LayerServer CryptIO
open Bromine.Handshake (DH Keys)

/-- A fair execution of a server with encrypted layers: `start` binds its listener or fails to; if somebody waits and `accept` is called, it returns; as long as a set-up goes on, it is polled again and again. Clients may do what they like. -/
structure FairLayerServer (A : Aead) (D : DH) (keys : List Keys) (σ : Nat → LayerServer.State A D keys) (op : Nat → Option LayerServer.Op) : Prop where
  run : Execution (LayerServer.step A D keys) {} σ op
  binds : WeaklyFair (LayerServer.step A D keys) σ op fun o => ∃ r, o = .bind r
  accepts : WeaklyFair (LayerServer.step A D keys) σ op fun o => o = .accept
  polls : ∀ n, (∀ m, n ≤ m → guest (σ m) ≠ []) → ∃ m, n ≤ m ∧ ∃ as, op m = some (.poll as)

/-- From some point on the server is in the set-up with this client, for ever. -/
def StuckWith {A : Aead} {D : DH} {keys : List Keys} (σ : Nat → LayerServer.State A D keys) (v : Visitor) : Prop := ∃ n, ∀ m, n ≤ m → guest (σ m) = [v]

end Bromine.Spec
