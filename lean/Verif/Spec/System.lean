import Verif.Model.System
/-
Vocabulary for the properties of two joined endpoints.
-/
namespace Bromine.Spec
open Bromine.Endpoint

/-- What handler task `t` emitted on connection `c`: with its context, and its final answer; in the order in which the
events went over the wire. -/
def answersOf {CB : Type} (s : State CB) (c t : Nat) : List Event :=
  ((s.out c).filter fun y => decide (y.origin = .task t ∨ y.origin = .final t)).map (·.event)

end Bromine.Spec

namespace Bromine.System

/-- All ids of events created on both sides are different: what C14 is meant to give, for two processes. -/
def DistinctIds {CA CB : Type} (s : Sys CA CB) : Prop := (s.a.created ++ s.b.created).Nodup

end Bromine.System
