import Verif.Spec.Fair
import Verif.Spec.Link
import Verif.Model.Stack
/-
Fair executions of two endpoints joined by connections, down to the bytes.
-/
namespace Bromine.Link

/-- The emit that holds the connection gets on: the transport takes at least one more byte, or the flush returns. On an encrypted connection this is a poll
for which the transport has at least one such answer. -/
def Kind.writes (checks : Bool) : (k : Kind) → (k.link checks).Op → Prop
  | .plain => fun (o : PlainOp) => (∃ n, o = .write n) ∨ o = .flush
  | .encrypted _ _ _ => fun (o : CryptOp) => ∃ n as, o = .poll (.ready (n + 1) :: as)
  | .layered _ _ _ => fun (o : CryptOp) => ∃ n as, o = .poll (.ready (n + 1) :: as)

/-- Bytes get to the receiver. -/
def Kind.transports (checks : Bool) : (k : Kind) → (k.link checks).Op → Prop
  | .plain => fun (o : PlainOp) => ∃ n, o = .deliver n
  | .encrypted _ _ _ => fun (o : CryptOp) => ∃ n, o = .deliver n
  | .layered _ _ _ => fun (o : CryptOp) => ∃ n, o = .deliver n

end Bromine.Link

namespace Bromine.Spec
open Bromine.Endpoint

/-- One endpoint is scheduled fairly, where the lock of the connection has to be got for writing. As `FairSide`; that a write is done at some time is not assumed,
only that whoever waits for the lock of a connection gets it if it is free again and again (tokio's `Mutex` is first in, first out). -/
structure FairTasks {S O : Type} (step : S → O → Option S) (σ : Nat → S) (op : Nat → Option O) (lift : Endpoint.Op → O) : Prop where
  takes : ∀ c, WeaklyFair step σ op fun o => ∃ t, o = lift (.take c t)
  delivers : ∀ c, StronglyFair step σ op fun o => ∃ t, o = lift (.deliver c t)
  sends : ∀ r, StronglyFair step σ op fun o => o = lift (.sent r)
  reads : ∀ r, WeaklyFair step σ op fun o => o = lift (.recv r)
  finishes : ∀ r, WeaklyFair step σ op fun o => o = lift (.finish r)
  handlers : ∀ t, WeaklyFair step σ op fun o => (∃ res, o = lift (.handlerDone t res)) ∨ o = lift (.handlerPanic t)
  responds : ∀ t, StronglyFair step σ op fun o => ∃ id, o = lift (.respond t id)

/-- A fair execution of two endpoints joined by plain and encrypted connections: both endpoints are scheduled fairly; an emit that holds a connection gets on;
bytes that have been written are carried; a receive loop for which the bytes of an event are there reads it. -/
structure FairStack {CA CB : Type} (ca : Config CA) (cb : Config CB) (linked : Nat → Bool) (kR kL : Nat → Link.Kind) (checks : Bool)
    (σ : Nat → Stack.St CA CB (fun c => (kR c).link checks) (fun c => (kL c).link checks))
    (op : Nat → Option (Stack.Op (fun c => (kR c).link checks) (fun c => (kL c).link checks))) : Prop where
  run : Execution (Stack.step ca cb linked _ _) (Stack.init _ _) σ op
  left : FairTasks (Stack.step ca cb linked _ _) σ op .left
  right : FairTasks (Stack.step ca cb linked _ _) σ op .right
  writesR : ∀ c, WeaklyFair (Stack.step ca cb linked _ _) σ op fun o => ∃ x, o = .linkR c x ∧ (kR c).writes checks x
  writesL : ∀ c, WeaklyFair (Stack.step ca cb linked _ _) σ op fun o => ∃ x, o = .linkL c x ∧ (kL c).writes checks x
  carriesR : ∀ c, WeaklyFair (Stack.step ca cb linked _ _) σ op fun o => ∃ x, o = .linkR c x ∧ (kR c).transports checks x
  carriesL : ∀ c, WeaklyFair (Stack.step ca cb linked _ _) σ op fun o => ∃ x, o = .linkL c x ∧ (kL c).transports checks x
  readsR : ∀ c, WeaklyFair (Stack.step ca cb linked _ _) σ op (· = .readR c)
  readsL : ∀ c, WeaklyFair (Stack.step ca cb linked _ _) σ op (· = .readL c)

end Bromine.Spec
