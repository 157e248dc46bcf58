import Verif.Model.LayerLink
import Verif.Model.DropLink
/-
One direction of a connection with encrypted layers of any depth (Model/LayerLink.lean), with emits that are dropped by their callers at any point while they hold the connection (emit_metadata.rs:84-102: the future
is dropped, the guard of line 92 is released; the write halves of all layers keep what they have begun, io_impl.rs:102-174).
-/
namespace Bromine.Layers
open CryptIO

/-- A step. Answers with which the transport fails are left out. An emit that panics (io_impl.rs:116, 143) or fails is over: the guard of emit_metadata.rs:92 is released, the write halves stay as they are. -/
def dropStep (A : Aead) {n : Nat} (s : LState n) : Link.DropOp → Option (LState n)
  | .poll as =>
    match s.cur with
    | some st =>
      if Link.fineAns as then
        match pollEmit (layersW A n) ((layersW A n).setBase s.w { (layersW A n).base s.w with answers := as }) st with
        | (.pending _, st, w) => some { s with w := w, cur := some st }
        | (_, _, w) => some { s with w := w, cur := none }
      else none
    | none => none
  | .drop =>
    match s.cur with
    | some _ => some { s with cur := none }
    | none => none
  | .deliver k => layersStep A s (.deliver k)
  | .wait => layersStep A s .wait

/-- A connection with these encrypted layers, the outermost first, on which emits can be dropped. -/
def layeredDrops (A : Aead) (ls : List Layer) (checks : Bool) : Link :=
  { layered A ls checks with Op := Link.DropOp, step := dropStep A }

end Bromine.Layers
