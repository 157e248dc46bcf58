import Verif.Spec.LayerPeer
/-
Encrypted layers and an attacker who does not have the keys of the outermost.
-/
namespace Bromine.Spec
open Layers (Exchange)
open Bromine.Handshake (DH)

/-- Of the pieces of `bs`, only those decipher under `key` as number `i` whose plaintext has been made with that number. -/
def OnlyMade (A : Aead) (key bs : Bytes) (made : Nat → Bytes → Prop) : Prop :=
  ∀ (i : Nat) (nonce c p : Bytes), i < 2 ^ 64 → Nonce i nonce → c <:+: bs → A.dec key nonce c = some p → made i p

/-- `read` is something that the layer `x` of a client can have read through the layers `inside`, after the peer's key `key`, which it trusts. -/
def ClientReads (A : Aead) (D : DH) (wire : Bytes) (x : Exchange) (inside : List Exchange) (key read : Bytes) : Prop :=
  ∃ sessions came rest, ClientHears A D wire inside sessions (key ++ came ++ rest) ∧ key.length = 32 ∧ Trusts D x.client key ∧ Taken inside came read

/-- The same for a server. -/
def ServerReads (A : Aead) (D : DH) (wire : Bytes) (x : Exchange) (inside : List Exchange) (key read : Bytes) : Prop :=
  ∃ keys came rest, ServerHears A D wire inside keys (key ++ came ++ rest) ∧ key.length = 32 ∧ Trusts D x.server key ∧ Taken inside came read

end Bromine.Spec
