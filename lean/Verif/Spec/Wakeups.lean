import Verif.Model.Layers
import Verif.Spec.Layers
/-
Who waits for a wake-up, and what reads over encrypted layers give.
-/
namespace Bromine.Spec
open CryptIO Layers

/-- Every layer is in the middle of reading a package, so the socket at the bottom is what is waited for. -/
def AllReading : (n : Nat) → RState n → Prop
  | 0, _ => True
  | n + 1, (rs, r) => (∃ acc, rs.fut = some (.reading acc)) ∧ AllReading n r

/-- Some layer has read all of a package, has nothing left of it, and has not begun to read another one; the layers around it wait for it. -/
def Stalled : (n : Nat) → RState n → Prop
  | 0, _ => False
  | n + 1, (rs, r) => (rs.fut = none ∧ rs.remaining = []) ∨ ((∃ acc, rs.fut = some (.reading acc)) ∧ Stalled n r)

/-- `bs` is a sequence of packages in packages, the first of them number `i`, with the given plaintexts in the outermost layer. -/
def NestedAll (A : Aead) (ls : List Layer) : Nat → List Bytes → Bytes → Prop
  | _, [], bs => bs = []
  | i, m :: ms, bs => ∃ pkg rest, Nested A ls i m pkg ∧ bs = pkg ++ rest ∧ NestedAll A ls (i + 1) ms rest

/-- What reads of the sizes `ns` give, if `rem` is left of the last package and the packages with the plaintexts `ms` follow. A read takes what is left, and if that is not enough then it takes from the next package; if
that is not enough either, the read never returns, whatever follows. `closed`: the stream ends after these packages. -/
def readsGive (closed : Bool) : Bytes → List Bytes → List Nat → List (Outcome Bytes)
  | _, _, [] => []
  | rem, ms, n :: ns =>
    if n ≤ rem.length then .ok (rem.take n) :: readsGive closed (rem.drop n) ms ns
    else
      match ms with
      | [] => [if closed then .err (.io .unexpectedEof) else .hang]
      | m :: ms => if n ≤ rem.length + m.length then .ok ((rem ++ m).take n) :: readsGive closed ((rem ++ m).drop n) ms ns else [.hang]

/-- The results of `read_exact` calls of the given sizes, one after the other, up to the first that does not return `Ok`. -/
def readResults {ρ : Type} (S : Source ρ) : ρ → List Nat → List (Outcome Bytes)
  | _, [] => []
  | r, n :: ns =>
    match S.readExact n r with
    | .ok (b, r) => .ok b :: readResults S r ns
    | .err e => [.err e]
    | .panic => [.panic]
    | .hang => [.hang]

end Bromine.Spec
