import Verif.Spec.Handshake
import Verif.Spec.Crypt
/-
What a key exchange with an arbitrary peer can end with.
-/
namespace Bromine.Spec
open Bromine.CryptIO Bromine.Handshake

/-- Among these answers of the transport to writes and flushes is this error (a write that takes nothing is reported as `WriteZero`). -/
def ErrorIn (as : List IoAns) (x : IoErr) : Prop := .fail x ∈ as ∨ (x = .writeZero ∧ .ready 0 ∈ as)

/-- Some poll of this history has met this error of the transport. -/
def TransportError (ops : List Handshake.Op) (x : IoErr) : Prop := ∃ k as, Handshake.Op.poll k as ∈ ops ∧ ErrorIn as x

/-- These bytes do not begin with a whole package: 4 bytes for a length, and so many bytes. -/
def NoPackage (bs : Bytes) : Prop := ∀ lb c rest, BigEndian 4 c.length lb → bs ≠ lb ++ c ++ rest

/-- From the peer have arrived: a trusted key; packages numbered from 0, encrypted under the key that was agreed, with the plaintexts `plains`; and then `rest`. -/
def Heard (A : Aead) (D : DH) (keys : Keys) (got : Bytes) (plains : List Bytes) (rest : Bytes) : Prop :=
  ∃ key pkgs, got = key ++ pkgs ++ rest ∧ key.length = 32 ∧ Trusts D keys key ∧ Packages A (D.dh keys.secret key) 0 plains pkgs

/-- The peer has sent the key of a stranger. -/
def Stranger (D : DH) (keys : Keys) (got key : Bytes) : Prop := key.length = 32 ∧ key <+: got ∧ ¬ Trusts D keys key

/-- After the key and some packages the peer has sent a package that does not decipher as the next one. -/
def Undecipherable (A : Aead) (D : DH) (keys : Keys) (got : Bytes) : Prop :=
  ∃ key pkgs plains lb c rest, got = key ++ pkgs ++ (lb ++ c ++ rest) ∧ key.length = 32 ∧ Trusts D keys key ∧ Packages A (D.dh keys.secret key) 0 plains pkgs ∧
    plains.flatten.length < 32 ∧ BigEndian 4 c.length lb ∧ ∀ nonce, Nonce plains.length nonce → A.dec (D.dh keys.secret key) nonce c = none

/-- The exchange has ended, with a connection or with an error. -/
def ServerEnded (s : Side SPhase) : Prop := (∃ st, s.phase = .done st) ∨ ∃ e, s.phase = .failed e
def ClientEnded (s : Side CPhase) : Prop := (∃ st, s.phase = .done st) ∨ ∃ e, s.phase = .failed e

end Bromine.Spec
