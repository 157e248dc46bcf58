import Verif.Model.LayerLink
import Verif.Spec.Crypt
import Mathlib.Logic.Relation
/-
What it means that a connection is faithful.
-/
namespace Bromine.Link

/-- `Hist L s em rd`: the link can get into state `s` so that the emits of the events `em` have got the connection, in this order, and the
receive loop has read the events `rd`, in this order. -/
inductive Hist (L : Link) : L.State → List Event → List Event → Prop
  | init : Hist L L.init [] []
  | step {s s' em rd} (o : L.Op) : Hist L s em rd → L.step s o = some s' → Hist L s' em rd
  | emit {s s' em rd} (e : Event) : Hist L s em rd → L.emit s e = some s' → Hist L s' (em ++ [e]) rd
  | read {s s' em rd} (e : Event) : Hist L s em rd → L.read s = some (e, s') → Hist L s' em (rd ++ [e])

/-- For events that the link can carry: what is read is what was emitted, in order; nothing is lost in between, doubled or changed. -/
def Faithful (L : Link) (carries : Event → Prop) : Prop :=
  ∀ s em rd, Hist L s em rd → (∀ e ∈ em, carries e) → rd <+: em

/-- For events that the link can carry: in every state it is possible that, by steps of the emitter that holds the connection, of the
transport and of the receiver alone, all events that have been emitted get read. -/
def Live (L : Link) (carries : Event → Prop) : Prop :=
  ∀ s em rd, Hist L s em rd → (∀ e ∈ em, carries e) → ∃ s', Hist L s' em em ∧ Drains L s s'
where
  /-- steps other than new emits -/
  Drains (L : Link) : L.State → L.State → Prop := Relation.ReflTransGen fun s s' => (∃ o, L.step s o = some s') ∨ ∃ e, L.read s = some (e, s')

/-- The kinds of connections of bromine; `key` is the session key of the direction, `log` what this side has encrypted before. `layered`: encrypted layers in each other, `l` the
outermost, each with its session key and the number of packages it has carried for the key exchanges of the layers around it. -/
inductive Kind where
  | plain
  | encrypted (A : Aead) (key : Bytes) (log : List Encryption := [])
  | layered (A : Aead) (l : Layers.Layer) (ls : List Layers.Layer)

/-- One direction of a connection of this kind. -/
def Kind.link (checks : Bool) : Kind → Link
  | .plain => Link.plain checks
  | .encrypted A key log => Link.crypt A key log checks
  | .layered A l ls => Layers.layered A (l :: ls) checks

/-- The events that such a connection can carry: the header fits its 16 bit length, a namespace is not empty, the payload can be
allocated; on an encrypted connection the package fits its 32 bit length (each layer adds 20 bytes for the next). -/
def Kind.carries : Kind → Event → Prop
  | .plain => fun e => Spec.Fits e ∧ Spec.Allocatable e
  | .encrypted _ _ _ => Spec.Small
  | .layered _ _ ls => fun e => Spec.Fits e ∧ Spec.frameSize e + 20 * ls.length + 16 < 2 ^ 32

end Bromine.Link
