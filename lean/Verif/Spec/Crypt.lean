import Verif.Model.Crypt
import Verif.Spec.Frame
/-
Specification of what goes over an encrypted connection, written without the encoder of the model. It shares the
cipher `Aead` and the layout of frames (Spec/Frame.lean).
-/
namespace Bromine.Spec

/-- The nonce of package number `i` (counted from 0): the number in 8 bytes, and its first 4 bytes again. -/
def Nonce (i : Nat) (nonce : Bytes) : Prop :=
  ∃ nb, BigEndian 8 (i % 2 ^ 64) nb ∧ nonce = nb ++ nb.take 4

/-- `bs` is package number `i` with the plaintext `plain`: 4 bytes for the length of the ciphertext, the ciphertext. -/
def Package (A : Aead) (key : Bytes) (i : Nat) (plain bs : Bytes) : Prop :=
  ∃ nonce cipher lb, Nonce i nonce ∧ A.enc key nonce plain = some cipher ∧ BigEndian 4 cipher.length lb ∧ bs = lb ++ cipher

/-- `bs` is a sequence of packages, numbered from `i`, with these plaintexts. -/
def Packages (A : Aead) (key : Bytes) : Nat → List Bytes → Bytes → Prop
  | _, [], bs => bs = []
  | i, m :: ms, bs => ∃ pkg rest, Package A key i m pkg ∧ bs = pkg ++ rest ∧ Packages A key (i + 1) ms rest

/-- `bs` is what has been written of a sequence of packages, numbered from `i`: of each, with this plaintext, the first so many bytes. -/
def TornPackages (A : Aead) (key : Bytes) : Nat → List (Bytes × Nat) → Bytes → Prop
  | _, [], bs => bs = []
  | i, (m, n) :: ps, bs => ∃ pkg rest, Package A key i m pkg ∧ n ≤ pkg.length ∧ bs = pkg.take n ++ rest ∧ TornPackages A key (i + 1) ps rest

/-- The package is complete: 4 bytes for its length and 16 for the tag are added to the plaintext. -/
def Whole (p : Bytes × Nat) : Bool := decide (p.1.length + 20 ≤ p.2)

/-- `bs` is a sequence of packages, numbered from `i`, each carrying one of the events. -/
def Sealed (A : Aead) (key : Bytes) : Nat → List Event → Bytes → Prop
  | _, [], bs => bs = []
  | i, e :: es, bs => ∃ frame pkg rest, FrameLayout e [0, 9, 0] [] frame ∧ Package A key i frame pkg ∧ bs = pkg ++ rest ∧ Sealed A key (i + 1) es rest

/-- The number of bytes an event takes on the wire of a plain connection. -/
def frameSize (e : Event) : Nat := 10 + headerSize e.header + e.data.length

/-- The events that an encrypted connection can carry: together with the 16 bytes of the tag the length fits 32 bits. -/
def Small (e : Event) : Prop := Fits e ∧ frameSize e + 16 < 2 ^ 32

end Bromine.Spec
