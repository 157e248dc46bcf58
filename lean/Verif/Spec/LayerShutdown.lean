import Verif.Model.CryptIO
/-
What polls of `poll_shutdown` lead to.
-/
namespace Bromine.Spec
open CryptIO (IoAns Poll)

/-- A shutdown of a connection with `n` encrypted layers is polled. `some k`: `k` layers have not been flushed; each is flushed in a poll of its own, which ends in `Pending` without a wake-up; when all have been, the socket is shut
down, the only time that it is asked. The socket's errors are passed on; after an error the shutdown can be repeated if it happened in the first flush. `none`: it is over, every further poll panics. -/
def shutdownResults (n : Nat) : Option Nat → List (List IoAns) → List (Poll Unit × Bool)
  | _, [] => []
  | none, _ :: ps => (.panic, false) :: shutdownResults n none ps
  | some k, as :: ps =>
    match as.head? with
    | none | some .pending => (.pending true, k == 0) :: shutdownResults n (some k) ps
    | some (.fail e) => (.ready (.error e), k == 0) :: shutdownResults n (if k = n then some n else none) ps
    | some (.ready _) =>
      match k with
      | 0 => (.ready (.ok ()), true) :: shutdownResults n none ps
      | k + 1 => (.pending false, false) :: shutdownResults n (some k) ps

end Bromine.Spec
