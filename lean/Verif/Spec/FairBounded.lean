import Verif.Spec.Bounded
import Verif.Spec.Fair
/-
Vocabulary for C98: fair executions over connections of limited capacity.
-/
namespace Bromine.Spec
open Bromine.Endpoint

/-- One endpoint is scheduled fairly, where writing may have to wait for room: as `FairSide`, but of writing it is only assumed that it is not passed over
for ever if there is room for it again and again (or that it fails). `lift` says which steps of the execution are steps of the endpoint. -/
structure FairSideB {S O : Type} (step : S → O → Option S) (σ : Nat → S) (op : Nat → Option O) (lift : Endpoint.Op → O) : Prop where
  takes : ∀ c, WeaklyFair step σ op fun o => ∃ t, o = lift (.take c t)
  delivers : ∀ c, StronglyFair step σ op fun o => ∃ t, o = lift (.deliver c t)
  reads : ∀ r, WeaklyFair step σ op fun o => o = lift (.recv r)
  finishes : ∀ r, WeaklyFair step σ op fun o => o = lift (.finish r)
  handlers : ∀ t, WeaklyFair step σ op fun o => (∃ res, o = lift (.handlerDone t res)) ∨ o = lift (.handlerPanic t)
  /-- the event of a request is written, or that fails, if there is room for it again and again -/
  sends : ∀ r n, (∀ m, n ≤ m → ∃ m', m ≤ m' ∧ Possible step (σ m') fun o => o = lift (.sent r)) →
    ∃ m, n ≤ m ∧ ∃ o, op m = some o ∧ (o = lift (.sent r) ∨ o = lift (.sendFail r))
  /-- the answer of a handler is written, or that fails, if there is room for it again and again -/
  responds : ∀ t n, (∀ m, n ≤ m → ∃ m', m ≤ m' ∧ Possible step (σ m') fun o => ∃ id, o = lift (.respond t id)) →
    ∃ m, n ≤ m ∧ ∃ o, op m = some o ∧ ((∃ id, o = lift (.respond t id)) ∨ o = lift (.respondFail t))

/-- A fair execution of two endpoints joined by connections of limited capacity. -/
structure FairBounded {CA CB : Type} (ca : Config CA) (cb : Config CB) (linked : Nat → Bool) (roomR roomL : Nat → List Event → Event → Bool)
    (σ : Nat → System.Sys CA CB) (op : Nat → Option System.Op) : Prop where
  run : Execution (Bounded.step ca cb linked roomR roomL) {} σ op
  left : FairSideB (Bounded.step ca cb linked roomR roomL) σ op .left
  right : FairSideB (Bounded.step ca cb linked roomR roomL) σ op .right
  toRight : ∀ c, WeaklyFairWhile (Bounded.step ca cb linked roomR roomL) σ op (fun s => Receiving s.b c) (· = .toRight c)
  toLeft : ∀ c, WeaklyFairWhile (Bounded.step ca cb linked roomR roomL) σ op (fun s => Receiving s.a c) (· = .toLeft c)

/-- Whether there is room does not depend on the event, and there is room if nothing is under way. -/
def RoomByLoad (room : Nat → List Event → Event → Bool) : Prop := ∀ c, (∀ l e e', room c l e = room c l e') ∧ ∀ e, room c [] e = true

end Bromine.Spec
