import Verif.Model.System
/-
Two endpoints joined by connections that hold only so much: writing an event waits until there is room for it (the `write_all` and `flush` of
src/ipc/stream_emitter/emit_metadata.rs:93-94 stay pending while the buffers of the socket are full). `Model/System.lean` leaves out this waiting, which its properties do not depend on.

Granularity: as there, an event is written in one step. How much room an event needs, given what has been written and not yet read by the receive loop of the other
side, is a parameter (`room`), for each connection and direction. An event that is larger than all buffers is written while the other side reads it: for it there is room when nothing else is
under way.
-/
namespace Bromine.Bounded
open Bromine.Endpoint Bromine.System

/-- The connection that a step writes an event to: emit_metadata_with_response.rs:57, emit_metadata_with_response_stream.rs:88,
emit_metadata.rs:92-94, ipc/mod.rs:72-75 and 82-92 (all of them write as in emit_metadata.rs:92-94). -/
def target {CB : Type} (cfg : Config CB) (s : State CB) : Endpoint.Op → Option Nat
  | .sent r => (s.reqs r).map (·.conn)
  | .emit ctx _ _ _ _ => (ctxOf cfg s ctx).map (·.1)
  | .respond t _ => (s.tasks t).map (·.conn)
  | _ => none

/-- What the writer `w` has written on connection `c` and the receive loop of `r` (ipc/mod.rs:24) has not read. -/
def pending {CA CB : Type} (w : State CA) (r : State CB) (c : Nat) : List Event :=
  ((w.out c).drop ((r.arrived c).length - (r.inbox c).length)).map (·.event)

/-- There is room for what the step of the writer from `w` to `w'` writes. -/
def fits {CA CB : Type} (cfg : Config CA) (linked : Nat → Bool) (room : Nat → List Event → Event → Bool) (w w' : State CA) (r : State CB)
    (op : Endpoint.Op) : Bool :=
  match target cfg w op with
  | none => true
  | some c =>
    !linked c ||
    match (w'.out c).getLast? with
    | some x => room c (pending w r c) x.event
    | none => true

section
variable {CA CB : Type} (ca : Config CA) (cb : Config CB) (linked : Nat → Bool) (roomR roomL : Nat → List Event → Event → Bool)

/-- One step: one of `Model/System.lean`, for which there is room. -/
def step (s : Sys CA CB) (op : System.Op) : Option (Sys CA CB) :=
  (System.step ca cb linked s op).bind fun s' =>
    match op with
    | .left o => if fits ca linked roomR s.a s'.a s.b o then some s' else none
    | .right o => if fits cb linked roomL s.b s'.b s.a o then some s' else none
    | _ => some s'

/-- Run a sequence of steps. -/
def run : Sys CA CB → List System.Op → Option (Sys CA CB)
  | s, [] => some s
  | s, op :: ops => (step ca cb linked roomR roomL s op).bind fun s => run s ops

/-- The states the system can get into. -/
def Reachable (s : Sys CA CB) : Prop := ∃ ops, run ca cb linked roomR roomL {} ops = some s

end
end Bromine.Bounded
