import Verif.Model.LayerLink
/-
The sending side of a connection with encrypted layers of any depth (Model/LayerLink.lean) with all that can happen to emits: they get the connection one after the other (emit_metadata.rs:92), they are polled, their callers drop
them at any point (emit_metadata.rs:84-102: the future is dropped, the guard of line 92 is released), and the transport fails at any time. The write halves of all layers stay as these calls leave them (io_impl.rs:102-174).
-/
namespace Bromine.Layers
open CryptIO

/-- `cur`: the emit that holds the connection, with its event. -/
structure AState (n : Nat) where
  w : WState n
  cur : Option (Event × Stage) := none

/-- What the socket has taken. -/
def AState.wire (A : Aead) {n : Nat} (s : AState n) : Bytes := ((layersW A n).base s.w).wire

/-- What can happen: an emit gets the connection; it is polled, and these are the answers of the socket; it is dropped. -/
inductive AnyOp where
  | emit (e : Event)
  | poll (as : List IoAns)
  | drop

/-- One poll of an emit whose state is `st`, emit_metadata.rs:91-95, with these answers of the socket. -/
def AState.polled (A : Aead) {n : Nat} (s : AState n) (st : Stage) (as : List IoAns) : Poll Unit × Stage × WState n :=
  pollEmit (layersW A n) ((layersW A n).setBase s.w { answers := as, wire := s.wire A }) st

/-- A step. An emit that is not pending is over: the guard of emit_metadata.rs:92 is released. -/
def anyStep (A : Aead) {n : Nat} (s : AState n) : AnyOp → Option (AState n)
  | .emit e =>
    match s.cur with
    | none => some { s with cur := some (e, .writing (Wire.frame e)) }
    | some _ => none
  | .poll as =>
    match s.cur with
    | none => none
    | some (e, st) =>
      match s.polled A st as with
      | (.pending _, st, w) => some { w := w, cur := some (e, st) }
      | (_, _, w) => some { w := w }
  | .drop =>
    match s.cur with
    | none => none
    | some _ => some { s with cur := none }

/-- When the sessions of these layers, the outermost first, have been set up. -/
def anyStart (ls : List Layer) : AState ls.length := { w := startW ls }

end Bromine.Layers
