import Verif.Model.Refine
/-
The futures of Model/Emit.lean with a clock. `tokio::time::sleep(timeout)` is evaluated when the `select!` is entered, that is in the poll that gets there
(emit_metadata_with_response.rs:63, emit_metadata_with_response_stream.rs:120); the `Sleep` lives in the suspended future, and is due when `timeout` has passed since then. Times are numbers of
any unit. A `Sleep` that is due need not be noticed at once: the timer driver of tokio has to run (`io.timer` in `Tick`). Not modelled: `sleep` cuts timeouts of more than 30 years.
-/
namespace Bromine.Refine

/-- A poll: when it happens, and what the rest of the process does during it; `io.timer t`: a timer of `t` that is due is noticed. -/
structure Tick (P : Type) where
  now : Nat
  io : Env P

/-- The future is suspended in the `select!`, emit_metadata_with_response.rs:59-66, emit_metadata_with_response_stream.rs:116-123. -/
def ReqFut.sleeping {P : Type} : ReqFut P → Bool
  | .reply f => match f.fut with | some (_, _, .running .selecting) => true | _ => false
  | .stream _ => false
  | .items x => match x.fut with | some (.running _) => true | _ => false

/-- A request future, and the time when the `Sleep` that it holds was made. -/
structure Timed (P : Type) where
  fut : ReqFut P
  since : Option Nat := none

/-- What the poll sees: the `Sleep` (made now, if there is none yet) has fired only if its time has passed. -/
def Timed.env {P : Type} (s : Timed P) (x : Tick P) : Env P :=
  { x.io with timer := fun t => x.io.timer t && decide (s.since.getD x.now + t ≤ x.now) }

/-- One poll (`poll_next`, once there is a stream). The `Sleep` is dropped with the block that holds it. -/
def Timed.poll {P : Type} (s : Timed P) (x : Tick P) : Got × Timed P × List Effect :=
  let r := s.fut.poll (s.env x)
  (r.1, { fut := r.2.1, since := if r.2.1.sleeping then some (s.since.getD x.now) else none }, r.2.2)

/-- A poll, and what it has given and done. -/
structure Obs (P : Type) where
  tick : Tick P
  got : Got
  effects : List Effect

/-- The future after a sequence of polls. -/
def Timed.after {P : Type} (s : Timed P) : List (Tick P) → Timed P
  | [] => s
  | x :: xs => (s.poll x).2.1.after xs

/-- What is seen of a sequence of polls. -/
def Timed.history {P : Type} (s : Timed P) : List (Tick P) → List (Obs P)
  | [] => []
  | x :: xs => { tick := x, got := (s.poll x).1, effects := (s.poll x).2.2 } :: (s.poll x).2.1.history xs

/-- The request as the user makes it, with or without `with_timeout`. -/
def Params.timed {P : Type} (a : Params P) (t : Option Nat) : Timed P := { fut := a.start t }

end Bromine.Refine
