import Verif.Model.Layers
import Verif.Spec.Crypt
/-
What goes over a connection with encrypted layers: packages in packages.
-/
namespace Bromine.Spec
open Layers (Layer)

/-- `bs` is the package of the innermost layer (the last of the list), whose plaintext is the package of the layer around it, and so on, up to the plaintext `plain` of the outermost layer (the first of the list). Each layer
numbers its packages, from its own start. -/
def Nested (A : Aead) : List Layer → Nat → Bytes → Bytes → Prop
  | [], _, plain, bs => bs = plain
  | l :: ls, i, plain, bs => ∃ pkg, Package A l.key (l.start + i) plain pkg ∧ Nested A ls i pkg bs

/-- `bs` is a sequence of such packages, the first of them number `i`, each carrying one of the events. -/
def NestedEvents (A : Aead) (ls : List Layer) : Nat → List Event → Bytes → Prop
  | _, [], bs => bs = []
  | i, e :: es, bs => ∃ frame pkg rest, FrameLayout e [0, 9, 0] [] frame ∧ Nested A ls i frame pkg ∧ bs = pkg ++ rest ∧ NestedEvents A ls (i + 1) es rest

/-- What each layer has encrypted, the outermost first. -/
def logs : (n : Nat) → Layers.WState n → List (List Encryption)
  | 0, _ => []
  | n + 1, (ws, t) => ws.enc.log :: logs n t

end Bromine.Spec
