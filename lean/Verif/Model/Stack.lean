import Verif.Model.Link
import Verif.Model.System
/-
Two endpoints joined by connections down to the bytes: as Model/System.lean, but a linked connection consists of two `Link`s, one for
each direction; the events that arrive are those that the receive loop decodes from the bytes that the transport delivers.
-/
namespace Bromine.Stack
open Bromine.Endpoint

/-- What an endpoint step writes: connection and event (emit_metadata.rs:89-98). -/
def emits {CB : Type} (cfg : Config CB) (s : State CB) : Endpoint.Op → Option (Nat × Event)
  | .sent r => (s.reqs r).map fun q => (q.conn, q.event)
  | .emit ctx ns name payload id => (ctxOf cfg s ctx).map fun (c, ref) => (c, ctxEvent ref ns name payload id)
  | .respond t id =>
    match s.tasks t with
    | some k =>
      match k.phase with
      | .responding res => some (k.conn, finalEvent cfg k res id)
      | _ => none
    | none => none
  | _ => none

/-- Function update, for families of links. -/
def updD {F : Nat → Type} (f : (c : Nat) → F c) (c : Nat) (x : F c) : (c : Nat) → F c :=
  fun d => if h : d = c then h ▸ x else f d

section
variable {CA CB : Type} (ca : Config CA) (cb : Config CB) (linked : Nat → Bool) (LR LL : Nat → Link)

/-- The endpoints and the links: `right c` from the first to the second, `left c` back. -/
structure St (CA CB : Type) (LR LL : Nat → Link) where
  sys : System.Sys CA CB
  right : (c : Nat) → (LR c).State
  left : (c : Nat) → (LL c).State

/-- Nothing has happened. -/
def init : St CA CB LR LL := { sys := {}, right := fun c => (LR c).init, left := fun c => (LL c).init }

inductive Op (LR LL : Nat → Link) where
  /-- a step of the first endpoint; if it writes an event on a linked connection, this is when it gets the connection -/
  | left (op : Endpoint.Op)
  | right (op : Endpoint.Op)
  /-- bytes are written, or carried to the second endpoint -/
  | linkR (c : Nat) (o : (LR c).Op)
  | linkL (c : Nat) (o : (LL c).Op)
  /-- the receive loop of `c` at the second endpoint reads an event -/
  | readR (c : Nat)
  | readL (c : Nat)

/-- One step. The request that emits is `waiting` from the moment it has got the lock on; in the code only after the
flush: the model allows more. -/
def step (s : St CA CB LR LL) : Op LR LL → Option (St CA CB LR LL)
  | .left op =>
    if System.isLocal linked op then
      (Endpoint.step ca s.sys.a op).bind fun a =>
        match emits ca s.sys.a op with
        | some (c, e) =>
          if linked c then ((LR c).emit (s.right c) e).map fun l => { s with sys := { s.sys with a := a }, right := updD s.right c l }
          else some { s with sys := { s.sys with a := a } }
        | none => some { s with sys := { s.sys with a := a } }
    else none
  | .right op =>
    if System.isLocal linked op then
      (Endpoint.step cb s.sys.b op).bind fun b =>
        match emits cb s.sys.b op with
        | some (c, e) =>
          if linked c then ((LL c).emit (s.left c) e).map fun l => { s with sys := { s.sys with b := b }, left := updD s.left c l }
          else some { s with sys := { s.sys with b := b } }
        | none => some { s with sys := { s.sys with b := b } }
    else none
  | .linkR c o => ((LR c).step (s.right c) o).map fun l => { s with right := updD s.right c l }
  | .linkL c o => ((LL c).step (s.left c) o).map fun l => { s with left := updD s.left c l }
  | .readR c =>
    if linked c ∧ s.sys.b.loop c = .idle ∧ s.sys.b.inbox c = [] then
      match (LR c).read (s.right c) with
      | some (e, l) => (Endpoint.step cb s.sys.b (.arrive c e)).map fun b => { s with sys := { s.sys with b := b }, right := updD s.right c l }
      | none => none
    else none
  | .readL c =>
    if linked c ∧ s.sys.a.loop c = .idle ∧ s.sys.a.inbox c = [] then
      match (LL c).read (s.left c) with
      | some (e, l) => (Endpoint.step ca s.sys.a (.arrive c e)).map fun a => { s with sys := { s.sys with a := a }, left := updD s.left c l }
      | none => none
    else none

/-- Run a sequence of steps. -/
def run : St CA CB LR LL → List (Op LR LL) → Option (St CA CB LR LL)
  | s, [] => some s
  | s, op :: ops => (step ca cb linked LR LL s op).bind fun s => run s ops

/-- The states that can be reached. -/
def Reachable (s : St CA CB LR LL) : Prop := ∃ ops, run ca cb linked LR LL (init LR LL) ops = some s

end
end Bromine.Stack
