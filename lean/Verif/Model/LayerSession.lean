import Verif.Model.LayerExchange
import Verif.Model.LayerLink
/-
A side of a connection with encrypted layers that emits events when it has set up the connection: `ConnectionContext`'s emits, one after the other (emit_metadata.rs:84-99; the connection lock, which gives them an order, is in
Model/Wire.lean).
-/
namespace Bromine.Layers
open CryptIO

/-- How it stands with the emits. After an error nothing more is emitted. -/
inductive Fate where
  | going
  | failed (e : IoErr)
  | panicked
deriving DecidableEq

/-- `cur`: the emit that holds the connection; `log`: the events, in the order in which their emits got it. -/
structure Emitter (n : Nat) where
  w : WState n
  cur : Option Stage := none
  log : List Event := []
  fate : Fate := .going

/-- The emit of an event gets the connection (emit_metadata.rs:92); the emit that has it is polled, with these answers of the socket. -/
inductive EmitOp where
  | emit (e : Event)
  | poll (as : List IoAns)

/-- What has gone to the wire. -/
def Emitter.wire (A : Aead) {n : Nat} (s : Emitter n) : Bytes := ((layersW A n).base s.w).wire

/-- emit_metadata.rs:92-94; see `pollEmit`. -/
def emitStep (A : Aead) {n : Nat} (s : Emitter n) : EmitOp → Option (Emitter n)
  | .emit e =>
    if s.fate = .going ∧ s.cur.isNone then some { s with cur := some (.writing (Wire.frame e)), log := s.log ++ [e] } else none
  | .poll as =>
    match s.fate, s.cur with
    | .going, some st =>
      match pollEmit (layersW A n) ((layersW A n).setBase s.w { (layersW A n).base s.w with answers := as }) st with
      | (.ready (.ok _), _, w) => some { s with w := w, cur := none }
      | (.pending _, st, w) => some { s with w := w, cur := some st }
      | (.ready (.error e), _, w) => some { s with w := w, cur := none, fate := .failed e }
      | (.panic, _, w) => some { s with w := w, cur := none, fate := .panicked }
    | _, _ => none

/-- A sequence of these. -/
def emits (A : Aead) {n : Nat} (s : Emitter n) : List EmitOp → Option (Emitter n)
  | [] => some s
  | o :: os => (emitStep A s o).bind fun s => emits A s os

end Bromine.Layers
