import Verif.Model.Bounded
import Verif.Spec.Progress
/-
Vocabulary for C97.
-/
namespace Bromine.Spec
open Bromine.Endpoint

/-- The receive loops go on, and replies are read: nothing is written, nobody gives up. -/
def Reads : Endpoint.Op → Prop
  | .take _ _ | .deliver _ _ | .recv _ | .finish _ => True
  | _ => False

/-- Somebody reads a reply to request `r` or gives the request up, or the connection `c` is stopped. -/
def LetsGo (c r : Nat) (op : Endpoint.Op) : Prop := op = .recv r ∨ op = .timeout r ∨ op = .drop r ∨ op = .abort c

/-- The receive loop of connection `c` waits for room in the channel of request `r`: there are 8 unread replies. -/
def WaitsFor {CB : Type} (s : State CB) (c r : Nat) : Prop :=
  ∃ e q, s.loop c = .sending r e ∧ s.reqs r = some q ∧ q.phase = .waiting ∧ q.buf.length = 8

/-- A connection that holds `n` events in each direction. -/
def holds (n : Nat) : Nat → List Event → Event → Bool := fun _ l _ => decide (l.length < n)

end Bromine.Spec
