import Verif.Spec.LayerDrop
/-
What becomes of each event that is emitted on a connection with encrypted layers when emits are dropped: a ledger, kept only by what the callers do and are told.
-/
namespace Bromine.Spec
open CryptIO Layers

/-- What an emit that was dropped has left behind in the write half: a package that `write_all` had begun, or a flush. -/
inductive Unfinished where
  | write
  | flush
deriving DecidableEq, Repr

/-- What a poll of an emit tells: `Ok`; pending in its `write_all`, or in its `flush`; it panics. -/
inductive Told where
  | ok
  | inWrite
  | inFlush
  | panicked
deriving DecidableEq, Repr

/-- The ledger: the events in packages that have been begun, package by package; those that wait in the buffer for the next package; those that are lost; what is unfinished; and the emit that has the
connection, with whether it has been polled. -/
structure Ledger where
  sent : List (List Event) := []
  waiting : List Event := []
  lost : List Event := []
  unfinished : Option Unfinished := none
  cur : Option (Event × Bool) := none
deriving DecidableEq

namespace Ledger

/-- The first poll of an emit of `e` decides. If nothing is unfinished, a package begins, with the events that wait and with `e`. If a write is unfinished, `e` is lost. If a flush is unfinished, `e` waits, unless
there are 1024 bytes then: in this case `e` is lost together with all that wait. -/
def first (L : Ledger) (e : Event) : Ledger :=
  match L.unfinished with
  | none => { L with sent := L.sent ++ [L.waiting ++ [e]], waiting := [] }
  | some .write => { L with lost := L.lost ++ [e] }
  | some .flush =>
    if (L.waiting.map frameSize).sum + frameSize e < 1024 then { L with waiting := L.waiting ++ [e] }
    else { L with lost := L.lost ++ L.waiting ++ [e], waiting := [] }

/-- An emit of `e` gets the connection. -/
def emit (L : Ledger) (e : Event) : Ledger := { L with cur := some (e, false) }

/-- The emit that has the connection is polled. -/
def poll (L : Ledger) (t : Told) : Ledger :=
  match L.cur with
  | none => L
  | some (e, polled) =>
    let L' := if polled then L else L.first e
    match t with
    | .ok => { L' with unfinished := none, cur := none }
    | .inWrite => { L' with unfinished := some .write, cur := some (e, true) }
    | .inFlush => { L' with unfinished := some .flush, cur := some (e, true) }
    | .panicked => { L' with cur := none }

/-- The emit that has the connection is dropped; if it was never polled its event is lost. -/
def drop (L : Ledger) : Ledger :=
  match L.cur with
  | some (e, false) => { L with lost := L.lost ++ [e], cur := none }
  | _ => { L with cur := none }

/-- The emit that has the connection but has not been polled yet. -/
def fresh (L : Ledger) : List Event :=
  match L.cur with
  | some (e, false) => [e]
  | _ => []

end Ledger

/-- What a poll of an emit tells. -/
def told {τ : Type} : Poll Unit × Stage × τ → Told
  | (.ready _, _) => .ok
  | (.panic, _) => .panicked
  | (.pending _, .writing _, _) => .inWrite
  | (.pending _, .flushing, _) => .inFlush

section
variable (A : Aead) (l : Layer) (ls : List Layer) (checks : Bool)

/-- From the state `s0` with the ledger `L0` the connection can get into the state `s` with the ledger `L`, so that meanwhile the emits of `em` have got the connection and the events `rd` have been read. -/
inductive Since (s0 : LState (l :: ls).length) (L0 : Ledger) : LState (l :: ls).length → List Event → List Event → Ledger → Prop
  | start : Since s0 L0 s0 [] [] L0
  | emit {s s' em rd L} (e : Event) : Since s0 L0 s em rd L → ((Link.DropKind.droppingLayers A l ls).link checks).emit s e = some s' → Since s0 L0 s' (em ++ [e]) rd (L.emit e)
  | poll {s s' em rd L st} (as : List IoAns) : Since s0 L0 s em rd L → s.cur = some st → ((Link.DropKind.droppingLayers A l ls).link checks).step s (.poll as) = some s' →
      Since s0 L0 s' em rd (L.poll (told (pollEmit (layersW A (l :: ls).length) ((layersW A (l :: ls).length).setBase s.w { answers := as, wire := s.wire A }) st)))
  | drop {s s' em rd L} : Since s0 L0 s em rd L → ((Link.DropKind.droppingLayers A l ls).link checks).step s .drop = some s' → Since s0 L0 s' em rd L.drop
  | deliver {s s' em rd L} (n : Nat) : Since s0 L0 s em rd L → ((Link.DropKind.droppingLayers A l ls).link checks).step s (.deliver n) = some s' → Since s0 L0 s' em rd L
  | wait {s s' em rd L} : Since s0 L0 s em rd L → ((Link.DropKind.droppingLayers A l ls).link checks).step s .wait = some s' → Since s0 L0 s' em rd L
  | read {s s' em rd L} (e : Event) : Since s0 L0 s em rd L → ((Link.DropKind.droppingLayers A l ls).link checks).read s = some (e, s') → Since s0 L0 s' em (rd ++ [e]) L

/-- The same from the beginning. -/
abbrev Ledgered (s : LState (l :: ls).length) (em rd : List Event) (L : Ledger) : Prop :=
  Since A l ls checks ((Link.DropKind.droppingLayers A l ls).link checks).init {} s em rd L

end
end Bromine.Spec
