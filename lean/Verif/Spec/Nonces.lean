import Verif.Model.SetupFail
import Verif.Model.LayerShutdown
import Verif.Spec.Layers
import Verif.Spec.Handshake
/-
Which keys and nonces a side uses in the life of a connection with encrypted layers.
-/
namespace Bromine.Spec
open Layers (WState Exchange SrvPhase CliPhase)
open Bromine.Handshake (DH)

/-- All these encryptions have been done with this key, number `i` with the nonce for `i`. -/
def Numbered (key : Bytes) (log : List Encryption) : Prop := ∀ (i : Nat) (e : Encryption), log[i]? = some e → e.key = key ∧ Nonce i e.nonce

/-- What a server encrypts in one layer before it uses the key of the session: this key, once, with the secret agreed with a peer that it trusts, and the nonce for 0. -/
def Introduces (D : DH) (x : Exchange) (e : Encryption) : Prop :=
  ∃ peer, peer.length = 32 ∧ Trusts D x.server peer ∧ e.key = D.dh x.server.secret peer ∧ Nonce 0 e.nonce ∧ e.plain = x.fresh

/-- What a server has encrypted in one layer. -/
def ServerLog (D : DH) (x : Exchange) (log : List Encryption) : Prop := ∃ first rest, log = first :: rest ∧ Introduces D x first ∧ Numbered x.fresh rest

/-- What the layers have encrypted so far, in an exchange of the outermost of them; `n` layers are inside. -/
def srvPhaseLogs {ρ : Type} (n : Nat) : SrvPhase (WState n) ρ → List (List Encryption)
  | .recvPub _ w _ | .sendPub _ _ w _ | .flushPub _ w _ => [] :: logs n w
  | .writeSecret _ w _ | .flushSecret w _ => logs (n + 1) w

/-- The same for a client. -/
def cliPhaseLogs {ρ : Type} (n : Nat) : CliPhase (WState n) ρ → List (List Encryption)
  | .sendPub _ w _ | .flushPub w _ | .recvPub _ w _ => [] :: logs n w
  | .recvSecret _ w _ => logs (n + 1) w

/-- What each layer has encrypted while a server sets them up, the outermost first. A layer whose exchange has not begun has encrypted nothing. -/
def serverLogs (A : Aead) (D : DH) : (xs : List Exchange) → (Layers.server A D xs).State → List (List Encryption)
  | [], _ => []
  | _ :: xs, .inl s => [] :: serverLogs A D xs s
  | _ :: xs, .inr x => srvPhaseLogs xs.length x

/-- The same for a client. -/
def clientLogs (A : Aead) (D : DH) : (xs : List Exchange) → (Layers.client A D xs).State → List (List Encryption)
  | [], _ => []
  | _ :: xs, .inl s => [] :: clientLogs A D xs s
  | _ :: xs, .inr x => cliPhaseLogs xs.length x

/-- The write halves after a sequence of polls, each with the answers of the socket. -/
def afterOps (A : Aead) (n : Nat) (w : WState n) (ops : List CryptIO.WOp) : WState n := ops.foldl (Layers.applyW A n) w

end Bromine.Spec
