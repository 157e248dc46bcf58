import Verif.Model.LayerLink
/-
The sending side of a connection with encrypted layers of any depth (Model/LayerLink.lean) over a transport that can fail at any time: emits get the connection one after the other (emit_metadata.rs:92) and are polled
until they are over, with whatever result; the write halves of all layers stay as the failed call has left them (io_impl.rs:102-174), and the next emit uses them.
-/
namespace Bromine.Layers
open CryptIO

/-- How an emit is over: `Ok`, an error, or a panic. -/
inductive EmitEnd where
  | ok
  | error (e : IoErr)
  | panicked
deriving DecidableEq, Repr

/-- An emit that is over (a history variable): its event, its result, and the bytes that the socket has taken while it had the connection. -/
structure EmitOver where
  event : Event
  result : EmitEnd
  bytes : Bytes
deriving DecidableEq

/-- `cur`: the emit that holds the connection, with its event; `mark`: the length of the wire when it got it. -/
structure FState (n : Nat) where
  w : WState n
  cur : Option (Event × Stage) := none
  mark : Nat := 0
  over : List EmitOver := []

/-- What the socket has taken. -/
def FState.wire (A : Aead) {n : Nat} (s : FState n) : Bytes := ((layersW A n).base s.w).wire

/-- What can happen: an emit gets the connection; the emit that has it is polled, and these are the answers of the socket. -/
inductive FailOp where
  | emit (e : Event)
  | poll (as : List IoAns)

/-- The emit is over, emit_metadata.rs:92-102: the guard is released. -/
def FState.done (A : Aead) {n : Nat} (s : FState n) (e : Event) (r : EmitEnd) (w : WState n) : FState n :=
  { s with w := w, cur := none, over := s.over ++ [{ event := e, result := r, bytes := ((layersW A n).base w).wire.drop s.mark }] }

/-- A step; emit_metadata.rs:91-95. -/
def failStep (A : Aead) {n : Nat} (s : FState n) : FailOp → Option (FState n)
  | .emit e =>
    match s.cur with
    | none => some { s with cur := some (e, .writing (Wire.frame e)), mark := ((layersW A n).base s.w).wire.length }
    | some _ => none
  | .poll as =>
    match s.cur with
    | none => none
    | some (e, st) =>
      match pollEmit (layersW A n) ((layersW A n).setBase s.w { (layersW A n).base s.w with answers := as }) st with
      | (.pending _, st, w) => some { s with w := w, cur := some (e, st) }
      | (.ready (.ok _), _, w) => some (s.done A e .ok w)
      | (.ready (.error x), _, w) => some (s.done A e (.error x) w)
      | (.panic, _, w) => some (s.done A e .panicked w)

/-- Steps one after the other. -/
def failSteps (A : Aead) {n : Nat} (s : FState n) : List FailOp → Option (FState n)
  | [] => some s
  | o :: os => (failStep A s o).bind fun s => failSteps A s os

/-- When the sessions of these layers, the outermost first, have been set up. -/
def failStart (ls : List Layer) : FState ls.length := { w := startW ls }

end Bromine.Layers
