import Verif.Model.Server
/-
Words for the specification of the accept loop.
-/
namespace Bromine.Spec
open Bromine.Server

/-- The clients that have connected, in order. -/
def connected (ops : List Server.Op) : List Nat := ops.filterMap fun op => match op with | .connect c => some c | _ => none

/-- The client whose key exchange is going on. -/
def inExchange (s : Server.State) : List Nat := match s.phase with | .exchanging c _ _ => [c] | _ => []

end Bromine.Spec
