import Verif.Model.Handshake
/-
Specification of the outcome of the key exchange.
-/
namespace Bromine.Spec
open Bromine.CryptIO Bromine.Handshake

/-- A connection that starts with the session key `key`: both halves use it, both counters are 0, nothing is buffered, no write is in progress. -/
def NewSession (key : Bytes) (st : CryptStream) : Prop :=
  st.read.dec.key = key ∧ st.read.dec.count = 0 ∧ st.read.remaining = [] ∧ st.read.fut = none ∧
  st.write.enc.key = key ∧ st.write.enc.count = 0 ∧ st.write.buffer = [] ∧ st.write.inner = true ∧ st.write.cipher = true ∧
  st.write.futWrite = none ∧ st.write.futFlush = none ∧ st.write.futShutdown = false

/-- The keys of a side let it talk to a peer with this public key: strangers are allowed, or the key is listed (in whatever encoding). -/
def Trusts (D : DH) (k : Keys) (peer : Bytes) : Prop := k.allowUnknown = true ∨ ∃ p ∈ k.knownPeers, D.same p peer = true

/-- The transport does not fail in this step: no error, no write that takes nothing, nobody closes. -/
def NoFault : PairOp → Prop
  | .server _ as => (∀ e, IoAns.fail e ∉ as) ∧ IoAns.ready 0 ∉ as
  | .client _ as => (∀ e, IoAns.fail e ∉ as) ∧ IoAns.ready 0 ∉ as
  | .closeServer => False
  | .closeClient => False
  | .moreServer _ => True
  | .moreClient _ => True

end Bromine.Spec
