import Verif.Model.System
/-
Two endpoints (src/ipc/mod.rs, context.rs, stream_emitter/*) whose connections may lose events: of what was emitted on a
linked connection, a subsequence arrives. This is what an encrypted connection does on which emits are dropped by their
callers (src/ipc/context.rs:99-140, a future dropped in a `select!` or by a timeout of the user; Props/CryptDrop.lean,
C45): the other side reads a subsequence of the events emitted, in order and unaltered, and goes on.
Model/System.lean is the special case without loss (`Lossy.of_system` in Lemmas/Lossy.lean).
-/
namespace Bromine.Lossy
open Bromine.Endpoint Bromine.System

variable {CA CB : Type}

/-- What arrived at the one on `c` is a subsequence of what the other emitted on `c`. -/
def Carries (linked : Nat → Bool) {C C' : Type} (receiver : State C) (sender : State C') : Prop :=
  ∀ c, linked c = true → (receiver.arrived c).Sublist ((sender.out c).map (·.event))

/-- The states two endpoints can get into: each of them takes any of its steps at any time, as long as its linked
connections carry only what the other one has emitted. -/
inductive Reachable (ca : Config CA) (cb : Config CB) (linked : Nat → Bool) : Sys CA CB → Prop
  | init : Reachable ca cb linked {}
  | left {s : Sys CA CB} {op : Endpoint.Op} {a : State CA} (h : Reachable ca cb linked s)
      (hs : Endpoint.step ca s.a op = some a) (hc : Carries linked a s.b) : Reachable ca cb linked { s with a := a }
  | right {s : Sys CA CB} {op : Endpoint.Op} {b : State CB} (h : Reachable ca cb linked s)
      (hs : Endpoint.step cb s.b op = some b) (hc : Carries linked b s.a) : Reachable ca cb linked { s with b := b }

end Bromine.Lossy
