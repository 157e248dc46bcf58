import Verif.Model.DataLock
/-
What a user may expect of the guards of the shared data (C85).
-/
namespace Bromine.Spec
open Bromine DataLock

/-- What a step does to the requests that were made and not dropped, in the order in which they were made. `n`: the number of requests so far. -/
def note {K V : Type} : Nat × List Guard → Op K V → Nat × List Guard
  | (n, l), .ask t m => (n + 1, l ++ [{ id := n, task := t, mode := m }])
  | (n, l), .drop i => (n, l.filter fun g => g.id ≠ i)
  | x, _ => x

/-- The requests of a history that were made and not dropped, in order. -/
def requests {K V : Type} (ops : List (Op K V)) : List Guard := (ops.foldl note (0, [])).2

/-- Whose turn it is: the first; and if it reads, those after it up to the first that wants to write. -/
def Turn (l : List Guard) (g : Guard) : Prop :=
  ∃ before after, l = before ++ g :: after ∧ (before = [] ∨ (g.mode = .read ∧ ∀ h ∈ before, h.mode = .read))

/-- What was written last under a key; `d`: what was there before. -/
def lastPut {K V : Type} [DecidableEq K] (d : K → Option V) (k : K) : List (Op K V) → Option V
  | [] => d k
  | .put _ k' v :: ops => lastPut (fun x => if x = k' then v else d x) k ops
  | _ :: ops => lastPut d k ops

end Bromine.Spec
