import Verif.Model.Layers
import Verif.Model.Link
/-
One direction of a connection with encrypted layers of any depth, from the emitters on the one side to the receive loop of the other side; see Model/Link.lean for what is assumed of the transport.
-/
namespace Bromine.Layers
open CryptIO

/-- Where an emit that holds the connection is: in `write_all` (with these bytes left) or in `flush`, emit_metadata.rs:92-94. -/
inductive Stage where
  | writing (rem : Bytes)
  | flushing
deriving DecidableEq, Repr

/-- `stream.flush().await` is polled, emit_metadata.rs:94. -/
def pollFlushing {τ B : Type} (T : WriteT τ B) (t : τ) : Poll Unit × Stage × τ :=
  match T.pollFlush t with
  | (p, t) => (p, .flushing, t)

/-- The emit that holds the connection is polled: `stream.write_all(..).await?; stream.flush().await?`, emit_metadata.rs:93-94. -/
def pollEmit {τ B : Type} (T : WriteT τ B) (t : τ) : Stage → Poll Unit × Stage × τ
  | .writing rem =>
    match writeAll T t rem with
    | (.ready (.ok _), _, t) => pollFlushing T t
    | (.ready (.error e), rem, t) => (.ready (.error e), .writing rem, t)
    | (.pending w, rem, t) => (.pending w, .writing rem, t)
    | (.panic, rem, t) => (.panic, .writing rem, t)
  | .flushing => pollFlushing T t

/-- `cur`: the emit that holds the connection; `sent` bytes of the wire have become available to the receiver; the bytes that no event has been read from are in the socket of `r`. -/
structure LState (n : Nat) where
  w : WState n
  cur : Option Stage := none
  sent : Nat := 0
  r : RState n

/-- What the socket has taken. -/
def LState.wire (A : Aead) {n : Nat} (s : LState n) : Bytes := ((layersW A n).base s.w).wire

/-- A step of a connection with `n` encrypted layers; as `Link.cryptStep`, polls in which the transport fails are left out. -/
def layersStep (A : Aead) {n : Nat} (s : LState n) : Link.CryptOp → Option (LState n)
  | .poll as =>
    match s.cur with
    | some st =>
      match pollEmit (layersW A n) ((layersW A n).setBase s.w { (layersW A n).base s.w with answers := as }) st with
      | (.ready (.ok _), _, w) => some { s with w := w, cur := none }
      | (.pending _, st, w) => some { s with w := w, cur := some st }
      | _ => none
    | none => none
  | .deliver k =>
    (Link.deliver ((layersW A n).base s.w).wire s.sent k ((layersR A n).base s.r).chunks).map fun (k, cs) =>
      { s with sent := k, r := (layersR A n).setBase s.r { chunks := cs, closed := false } }
  | .wait => some { s with r := (layersR A n).setBase s.r { chunks := ((layersR A n).base s.r).chunks ++ [.pending], closed := false } }

/-- One direction of a connection with these encrypted layers, the outermost first, when all key exchanges are done. -/
def layered (A : Aead) (ls : List Layer) (checks : Bool) : Link where
  State := LState ls.length
  init := { w := startW ls, r := startR { chunks := [], closed := false } ls }
  Op := Link.CryptOp
  step := layersStep A
  emit s e := match s.cur with
    | none => some { s with cur := some (.writing (Wire.frame e)) }
    | some _ => none
  read s :=
    match Event.fromAsyncRead (source (layersR A ls.length)) checks s.r with
    | .ok (e, r) => some (e, { s with r := r })
    | _ => none

end Bromine.Layers
