import Verif.Spec.Layers
import Verif.Model.LayerFail
import Verif.Spec.LayerAttack
/-
What is on the wire of a connection with encrypted layers if the transport has failed.
-/
namespace Bromine.Spec
open Layers (Layer EmitOver EmitEnd FState FailOp)

/-- `pkg` is what emit number `i`, of the event `e`, has to bring to the wire: the packages in packages with the frame of the event, each with the number that its layer gives it. -/
def Due (A : Aead) (ls : List Layer) (i : Nat) (e : Event) (pkg : Bytes) : Prop := ∃ frame, FrameLayout e [0, 9, 0] [] frame ∧ Nested A ls i frame pkg

/-- The emits that have had the connection, one after the other, and the bytes that the socket has taken from each; the last of them still has it, if one has. -/
def began (A : Aead) {n : Nat} (s : FState n) : List (Event × Bytes) :=
  s.over.map (fun x => (x.event, x.bytes)) ++ (match s.cur with
    | some (e, _) => [(e, (s.wire A).drop s.mark)]
    | none => [])

end Bromine.Spec
