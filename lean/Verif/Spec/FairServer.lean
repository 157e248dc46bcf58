import Verif.Spec.Fair
import Verif.Spec.Server
import Verif.Spec.Handshake
/-
Infinite executions of a server and of a key exchange, and what it means that they are scheduled fairly.
-/
namespace Bromine.Spec
open Bromine.CryptIO Bromine.Handshake

/-- The first `n` steps of an infinite execution. -/
def firstSteps {O : Type} (op : Nat → Option O) (n : Nat) : List O := (List.range n).filterMap op

/-- A fair execution of a server: `start` binds its listener or fails to; if somebody waits and `accept` is called, it returns; as long as a key exchange goes on, the server polls it
again and again, and what the client has sent is handed out to it (at least a byte at a time). Clients may do what they like. -/
structure FairServer (A : Aead) (D : DH) (l : Server.Listener) (σ : Nat → Server.State) (op : Nat → Option Server.Op) : Prop where
  run : Execution (Server.step A D l) {} σ op
  binds : WeaklyFair (Server.step A D l) σ op fun o => ∃ r, o = .bind r
  accepts : WeaklyFair (Server.step A D l) σ op fun o => ∃ fresh, o = .accept fresh
  polls : ∀ n, (∀ m, n ≤ m → inExchange (σ m) ≠ []) → ∃ m, n ≤ m ∧ ∃ k as, op m = some (.exchange (.poll k as)) ∧ 0 < k

/-- From some point on the server is in a key exchange with the client `c`, for ever. -/
def Stuck (σ : Nat → Server.State) (c : Nat) : Prop := ∃ n, ∀ m, n ≤ m → inExchange (σ m) = [c]

/-- The transport answers the first write or flush of a poll: it takes something or fails. -/
def Answers (as : List IoAns) : Prop := ∃ a rest, as = a :: rest ∧ a ≠ .pending

/-- How many bytes the client of the current key exchange has sent. -/
def heardFrom (s : Server.State) : Nat := match s.phase with | .exchanging _ _ side => side.got.length | _ => 0

/-- The client of the current key exchange has closed the connection. -/
def hungUp (s : Server.State) : Bool := match s.phase with | .exchanging _ _ side => side.closed | _ => false

/-- A fair key exchange over an undisturbed connection: nothing fails, and each side, until it has completed the exchange, is polled again and again with a transport that
hands out something of what has been sent to it, and with one that takes something of what it writes. -/
structure FairPair (A : Aead) (D : DH) (sk ck : Keys) (fresh : Bytes) (σ : Nat → Pair) (op : Nat → Option PairOp) : Prop where
  run : Execution (Pair.step A D sk ck fresh) (Pair.init D ck) σ op
  noFault : ∀ n o, op n = some o → NoFault o
  serverReads : ∀ n, (∀ m, n ≤ m → ∀ st, (σ m).server.phase ≠ .done st) → ∃ m, n ≤ m ∧ ∃ k as, op m = some (.server k as) ∧ 0 < k
  serverWrites : ∀ n, (∀ m, n ≤ m → ∀ st, (σ m).server.phase ≠ .done st) → ∃ m, n ≤ m ∧ ∃ k as, op m = some (.server k as) ∧ Answers as
  clientReads : ∀ n, (∀ m, n ≤ m → ∀ st, (σ m).client.phase ≠ .done st) → ∃ m, n ≤ m ∧ ∃ k as, op m = some (.client k as) ∧ 0 < k
  clientWrites : ∀ n, (∀ m, n ≤ m → ∀ st, (σ m).client.phase ≠ .done st) → ∃ m, n ≤ m ∧ ∃ k as, op m = some (.client k as) ∧ Answers as

end Bromine.Spec
