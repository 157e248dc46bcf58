import Verif.Model.EventId
/-
When two clock readings cannot be told apart in event ids.
-/
namespace Bromine.Spec

/-- The same millisecond of seconds that are a multiple of 65535 seconds (18.2 hours) apart. -/
def SameMoment (n n' : Now) : Prop := n.secs % 65535 = n'.secs % 65535 ∧ n.millis = n'.millis

/-- `subsec_millis` returns less than 1000. -/
def RealClock (ops : List IdGen.Op) : Prop := ∀ t now, IdGen.Op.clock t (some now) ∈ ops → now.millis < 1000

/-- The clock readings of the calls in thread `t`, in order. -/
def readings (t : Nat) (ops : List IdGen.Op) : List Now :=
  ops.filterMap fun o => match o with | .clock u (some now) => if u = t then some now else none | _ => none

/-- The clock readings in the ids that thread `t` was given, in order. -/
def readingsUsed (t : Nat) (s : IdGen.State) : List Now := ((s.out.zip s.used).filter fun p => p.1.1 = t).map (·.2)

end Bromine.Spec
