import Verif.Spec.Layers
import Verif.Spec.DropLink
/-
What goes over a connection with encrypted layers if a package can carry several events.
-/
namespace Bromine.Spec
open Layers (Layer)

/-- `bs` is the frames of these events, one after the other. -/
def Frames : List Event → Bytes → Prop
  | [], bs => bs = []
  | e :: es, bs => ∃ frame rest, FrameLayout e [0, 9, 0] [] frame ∧ bs = frame ++ rest ∧ Frames es rest

/-- `bs` is a sequence of packages in packages (`Nested`), the first of them number `i`, each carrying whole frames of these events. -/
def NestedGroups (A : Aead) (ls : List Layer) : Nat → List (List Event) → Bytes → Prop
  | _, [], bs => bs = []
  | i, g :: gs, bs => ∃ plain pkg rest, Frames g plain ∧ Nested A ls i plain pkg ∧ bs = pkg ++ rest ∧ NestedGroups A ls (i + 1) gs rest

/-- Steps of a connection, one after the other. -/
def _root_.Bromine.Link.steps (L : Link) : L.State → List L.Op → Option L.State
  | s, [] => some s
  | s, o :: os => (L.step s o).bind fun s => L.steps s os

end Bromine.Spec
