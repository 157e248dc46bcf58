import Verif.Model.Lossy
/-
C78: events that are lost on the way.
-/
namespace Bromine.Spec
open Bromine Endpoint

/-- `e` was sent and is lost: it has not arrived, but an event that was sent after it has. -/
def Lost (sent arrived : List Event) (e : Event) : Prop := e ∉ arrived ∧ ∃ l x l', sent = l ++ x :: l' ∧ e ∈ l ∧ x ∈ arrived

end Bromine.Spec

namespace Bromine.Lossy
open Bromine.Endpoint Bromine.System

/-- `s'` can come after `s`: both endpoints take any steps, over connections that lose events. -/
inductive Later {CA CB : Type} (ca : Config CA) (cb : Config CB) (linked : Nat → Bool) (s : Sys CA CB) : Sys CA CB → Prop
  | refl : Later ca cb linked s s
  | left {t : Sys CA CB} {op : Endpoint.Op} {a : State CA} (h : Later ca cb linked s t)
      (hs : Endpoint.step ca t.a op = some a) (hc : Carries linked a t.b) : Later ca cb linked s { t with a := a }
  | right {t : Sys CA CB} {op : Endpoint.Op} {b : State CB} (h : Later ca cb linked s t)
      (hs : Endpoint.step cb t.b op = some b) (hc : Carries linked b t.a) : Later ca cb linked s { t with b := b }

end Bromine.Lossy
