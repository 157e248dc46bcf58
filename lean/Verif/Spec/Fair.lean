import Verif.Spec.Progress
/-
Infinite executions and fairness. An execution may also rest (`none`) at any point; that nothing rests for ever although it could go on is what fairness
says.
-/
namespace Bromine.Spec
open Bromine.Endpoint

section
variable {S O : Type} (step : S → O → Option S)

/-- `σ` are the states of an infinite execution from `init`, `op` its steps. -/
structure Execution (init : S) (σ : Nat → S) (op : Nat → Option O) : Prop where
  start : σ 0 = init
  next : ∀ n, match op n with
    | none => σ (n + 1) = σ n
    | some o => step (σ n) o = some (σ (n + 1))

/-- A step of the class `C` is possible. -/
def Possible (s : S) (C : O → Prop) : Prop := ∃ o s', C o ∧ step s o = some s'

/-- If from some point on a step of the class is always possible, one is taken. -/
def WeaklyFair (σ : Nat → S) (op : Nat → Option O) (C : O → Prop) : Prop :=
  ∀ n, (∀ m, n ≤ m → Possible step (σ m) C) → ∃ m, n ≤ m ∧ ∃ o, op m = some o ∧ C o

/-- If a step of the class is possible again and again, one is taken. -/
def StronglyFair (σ : Nat → S) (op : Nat → Option O) (C : O → Prop) : Prop :=
  ∀ n, (∀ m, n ≤ m → ∃ m', m ≤ m' ∧ Possible step (σ m') C) → ∃ m, n ≤ m ∧ ∃ o, op m = some o ∧ C o

/-- If from some point on a step of the class is always possible and `R` always holds, one is taken. -/
def WeaklyFairWhile (σ : Nat → S) (op : Nat → Option O) (R : S → Prop) (C : O → Prop) : Prop :=
  ∀ n, (∀ m, n ≤ m → R (σ m) ∧ Possible step (σ m) C) → ∃ m, n ≤ m ∧ ∃ o, op m = some o ∧ C o

/-- One endpoint is scheduled fairly. `lift` says which steps of the execution are steps of the endpoint. -/
structure FairSide (σ : Nat → S) (op : Nat → Option O) (lift : Endpoint.Op → O) : Prop where
  /-- receive loops are polled -/
  takes : ∀ c, WeaklyFair step σ op fun o => ∃ t, o = lift (.take c t)
  /-- the senders of a channel get their turn (tokio serves them in order) -/
  delivers : ∀ c, StronglyFair step σ op fun o => ∃ t, o = lift (.deliver c t)
  /-- writing the event of a request succeeds or fails at some time -/
  sends : ∀ r, WeaklyFair step σ op fun o => o = lift (.sent r) ∨ o = lift (.sendFail r)
  /-- whoever makes a request keeps polling it (`await`s the reply, reads the stream), or drops it -/
  reads : ∀ r, WeaklyFair step σ op fun o => o = lift (.recv r)
  finishes : ∀ r, WeaklyFair step σ op fun o => o = lift (.finish r)
  /-- every handler returns or panics at some time -/
  handlers : ∀ t, WeaklyFair step σ op fun o => (∃ res, o = lift (.handlerDone t res)) ∨ o = lift (.handlerPanic t)
  /-- writing the answer of a handler succeeds or fails at some time -/
  responds : ∀ t, WeaklyFair step σ op fun o => (∃ id, o = lift (.respond t id)) ∨ o = lift (.respondFail t)

end

/-- A fair execution of one endpoint, with an arbitrary peer. -/
structure FairRun {CB : Type} (cfg : Config CB) (σ : Nat → State CB) (op : Nat → Option Endpoint.Op) : Prop where
  run : Execution (Endpoint.step cfg) {} σ op
  fair : FairSide (Endpoint.step cfg) σ op id

/-- A fair execution of two joined endpoints: both are scheduled fairly, and the connections carry what has been written to a side that reads it. -/
structure FairSys {CA CB : Type} (ca : Config CA) (cb : Config CB) (linked : Nat → Bool) (σ : Nat → System.Sys CA CB)
    (op : Nat → Option System.Op) : Prop where
  run : Execution (System.step ca cb linked) {} σ op
  left : FairSide (System.step ca cb linked) σ op .left
  right : FairSide (System.step ca cb linked) σ op .right
  toRight : ∀ c, WeaklyFairWhile (System.step ca cb linked) σ op (fun s => Receiving s.b c) (· = .toRight c)
  toLeft : ∀ c, WeaklyFairWhile (System.step ca cb linked) σ op (fun s => Receiving s.a c) (· = .toLeft c)

/-- Something has come between a request and its answer: it timed out, could not be written or was dropped; or its connection is not read any more on one
of the sides; or the callback that handles it panicked, or its answer could not be written. -/
def GivenUp {CA CB : Type} (s : System.Sys CA CB) (r : Nat) (q : Req) : Prop :=
  (∃ q', s.a.reqs r = some q' ∧ (q'.phase = .finished .timeout ∨ q'.phase = .finished .failed ∨ q'.phase = .finished .dropped)) ∨
  ¬ Receiving s.a q.conn ∨ ¬ Receiving s.b q.conn ∨
  ∃ t k, s.b.tasks t = some k ∧ k.conn = q.conn ∧ k.event = q.event ∧ ¬ Healthy k

end Bromine.Spec
