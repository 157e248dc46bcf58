import Verif.Model.LayerExchange
/-
C80, one layer: what it means that the key exchange of one encrypted layer over a socket, and the key exchange of an encrypted connection, are the same.
-/
namespace Bromine.Spec
open Bromine CryptIO Layers
open Bromine.Handshake (SPhase CPhase)

/-- The answers of the socket to the writes in one poll, if the step is one. -/
def pollAnswers : Handshake.Op → Option (List CryptIO.IoAns)
  | .poll _ as => some as
  | _ => none

/-- The future is not ready. -/
def _root_.Bromine.Layers.Setup.isPending {σ τ ρ : Type} : Setup σ τ ρ → Bool
  | .pending _ _ => true
  | _ => false

/-- The server of the layer is where the server of the connection is: both have not ended, or both have ended in the same way. If a connection was made: with the same state, and with the same bytes left in the socket. -/
def SameServer {φ : Type} : Setup φ (WriteStream × Socket) (ReadStream × Script) → Handshake.Side SPhase → Prop
  | .pending _ _, s => (∀ st, s.phase ≠ .done st) ∧ (∀ e, s.phase ≠ .failed e) ∧ s.phase ≠ .panicked
  | .done w r, s => s.phase = .done { read := r.1, write := w.1 } ∧ s.inbox = r.2.bytes
  | .failed e _, s => s.phase = .failed e
  | .panicked _, s => s.phase = .panicked

/-- The same for the client. -/
def SameClient {φ : Type} : Setup φ (WriteStream × Socket) (ReadStream × Script) → Handshake.Side CPhase → Prop
  | .pending _ _, s => (∀ st, s.phase ≠ .done st) ∧ (∀ e, s.phase ≠ .failed e) ∧ s.phase ≠ .panicked
  | .done w r, s => s.phase = .done { read := r.1, write := w.1 } ∧ s.inbox = r.2.bytes
  | .failed e _, s => s.phase = .failed e
  | .panicked _, s => s.phase = .panicked

end Bromine.Spec
