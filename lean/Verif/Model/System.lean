import Verif.Model.Endpoint
/-
Two endpoints (src/ipc/mod.rs, context.rs, stream_emitter/*) joined by connections: connection `c` of the one is
connection `c` of the other, for the `c` that are `linked`. The transport of a linked connection delivers in each
direction what was emitted, in order, and may stop at any point (Props/Frame.lean and Props/Wire.lean justify this for
the plain byte streams, Props/Crypt*.lean for encrypted ones). The peers of all other connections are arbitrary.
-/
namespace Bromine.System
open Bromine.Endpoint

/-- The state of both endpoints. -/
structure Sys (CA CB : Type) where
  a : State CA := {}
  b : State CB := {}

inductive Op where
  /-- a step of the first endpoint -/
  | left (op : Endpoint.Op)
  /-- a step of the second endpoint -/
  | right (op : Endpoint.Op)
  /-- the next event emitted by the first endpoint on `c` arrives at the second -/
  | toRight (c : Nat)
  | toLeft (c : Nat)

/-- Arrivals on linked connections come from the other endpoint only. -/
def isLocal (linked : Nat → Bool) : Endpoint.Op → Bool
  | .arrive c _ => !linked c
  | _ => true

section
variable {CA CB : Type} (ca : Config CA) (cb : Config CB) (linked : Nat → Bool)

/-- One step of the system. -/
def step (s : Sys CA CB) : Op → Option (Sys CA CB)
  | .left op => if isLocal linked op then (Endpoint.step ca s.a op).map fun a => { s with a := a } else none
  | .right op => if isLocal linked op then (Endpoint.step cb s.b op).map fun b => { s with b := b } else none
  | .toRight c =>
    if linked c then
      match (s.a.out c)[(s.b.arrived c).length]? with
      | some x => (Endpoint.step cb s.b (.arrive c x.event)).map fun b => { s with b := b }
      | none => none
    else none
  | .toLeft c =>
    if linked c then
      match (s.b.out c)[(s.a.arrived c).length]? with
      | some x => (Endpoint.step ca s.a (.arrive c x.event)).map fun a => { s with a := a }
      | none => none
    else none

/-- Run a sequence of steps. -/
def run : Sys CA CB → List Op → Option (Sys CA CB)
  | s, [] => some s
  | s, op :: ops => (step ca cb linked s op).bind fun s => run s ops

/-- The states the system can get into. -/
def Reachable (s : Sys CA CB) : Prop := ∃ ops, run ca cb linked {} ops = some s

end
end Bromine.System
