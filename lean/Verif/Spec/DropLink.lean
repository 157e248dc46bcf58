import Verif.Model.DropLink
import Verif.Model.LayerDrop
import Verif.Spec.Link
/-
What it means that a connection loses events at most; the kinds of connections on which emits can be dropped.
-/
namespace Bromine.Link

/-- For events that the link can carry: what is read was emitted, in this order; some of it may be missing; nothing is doubled or changed. -/
def LosesAtMost (L : Link) (carries : Event → Prop) : Prop :=
  ∀ s em rd, Hist L s em rd → (∀ e ∈ em, carries e) → rd.Sublist em

/-- A connection on which no emit is dropped that holds it; or an encrypted connection, or one with any number of encrypted layers in each
other, on which any emits are dropped at any point. -/
inductive DropKind where
  | kept (k : Kind)
  | dropping (A : Aead) (key : Bytes) (log : List Encryption := [])
  | droppingLayers (A : Aead) (outer : Layers.Layer) (inner : List Layers.Layer)

/-- One direction of such a connection. -/
def DropKind.link (checks : Bool) : DropKind → Link
  | .kept k => k.link checks
  | .dropping A key log => cryptDrops A key log checks
  | .droppingLayers A l ls => Layers.layeredDrops A (l :: ls) checks

/-- The events that it can carry; if emits are dropped, a package can hold up to 1023 bytes of the frames of earlier emits. -/
def DropKind.carries : DropKind → Event → Prop
  | .kept k => k.carries
  | .dropping _ _ _ => fun e => Spec.Fits e ∧ Spec.frameSize e + 1024 + 16 < 2 ^ 32
  | .droppingLayers _ _ ls => fun e => Spec.Fits e ∧ Spec.frameSize e + 1024 + 20 * ls.length + 16 < 2 ^ 32

end Bromine.Link
