import Verif.Spec.System
/-
Vocabulary for what can still happen.
-/
namespace Bromine.Spec
open Bromine.Endpoint

/-- Steps that only carry on with what has been begun: the receive loops, waiting requests and handlers go on. Nothing new is emitted, nobody gives up
(no timeout, no drop, no failed write), nothing is stopped and no callback panics. -/
def Forward : Endpoint.Op → Prop
  | .take _ _ | .deliver _ _ | .sent _ | .recv _ | .finish _ | .handlerDone _ _ | .respond _ _ | .cleanup _ => True
  | _ => False

/-- The same for both endpoints; and the connections carry events. -/
def SysForward : System.Op → Prop
  | .left op => Forward op
  | .right op => Forward op
  | .toRight _ => True
  | .toLeft _ => True

/-- The receive loop of connection `c` is running. -/
def Receiving {CB : Type} (s : State CB) (c : Nat) : Prop := ∀ lost, s.loop c ≠ .ended lost

/-- The handler task has not panicked, and its answer (if it has got that far) has been written. -/
def Healthy {CB : Type} (k : Endpoint.Task CB) : Prop :=
  k.phase ≠ .crashed ∧ ∀ res, k.phase ≠ .cleaning res false ∧ k.phase ≠ .done res false

/-- The handler has returned an error or panicked. -/
def HandlerFailed {CB : Type} (k : Endpoint.Task CB) : Prop :=
  k.phase = .crashed ∨ ∃ x, k.phase = .responding (.error x) ∨ (∃ sent, k.phase = .cleaning (.error x) sent) ∨ ∃ sent, k.phase = .done (.error x) sent

end Bromine.Spec
