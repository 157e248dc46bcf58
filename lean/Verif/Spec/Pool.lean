import Verif.Model.Pool
/-
Vocabulary for the properties of a pool.
-/
namespace Bromine.Spec
open Bromine.Pool

/-- The number of live guards for context `i`: those outside of pool handles and those in pool handles. -/
def live (s : State) (i : Nat) : Nat :=
  s.guards.count i + s.handles.countP fun h => decide (h.lo ≤ i ∧ i < h.hi)

/-- Some pool handle is alive. -/
def poolAlive (s : State) : Prop := ∃ h ∈ s.handles, h.phase = .ready

/-- `i` is the first of the contexts `0..n` with the least usage. -/
def FirstLeast (usage : Nat → Nat) (n i : Nat) : Prop :=
  i < n ∧ (∀ j < n, usage i ≤ usage j) ∧ ∀ j < i, usage i < usage j

end Bromine.Spec
