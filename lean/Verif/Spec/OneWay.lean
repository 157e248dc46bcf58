import Verif.Spec.System
/-
Vocabulary for C96: events that are emitted without waiting for a reply.
-/
namespace Bromine.Spec
open Bromine.Endpoint

/-- An event that refers to no other event and is not an End event: what `emit` sends on the context of a connection. -/
def unprompted (e : Event) : Bool := decide (e.referenceId = none ∧ e.eventType ≠ .end)

/-- The events emitted on connection `c`, in the order in which they are written. -/
def emittedOn {CB : Type} (s : State CB) (c : Nat) : List Event := (s.out c).map (·.event)

/-- The handler tasks started on connection `c`, in the order in which they were started. -/
def startedOn {CB : Type} (s : State CB) (c : Nat) : List Nat :=
  (s.processed.filter fun x => decide (x.conn = c)).filterMap fun x => match x.dest with | .handler t => some t | _ => none

/-- The event of a handler task. -/
def eventOf {CB : Type} (s : State CB) (t : Nat) : Option Event := (s.tasks t).map (·.event)

end Bromine.Spec
