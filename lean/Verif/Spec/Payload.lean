import Verif.Model.Payload
import Verif.Spec.Frame
/-
Specification of payload layouts and of what "round-trips" means.
-/
namespace Bromine.Spec

/-- The value `v` survives encoding and decoding, however the decoder leaves its reader. -/
def RoundTrips {α : Type} (p : Payload α) (v : α) : Prop :=
  ∃ b, p.enc v = .ok b ∧ ∃ left, p.dec b = .ok (v, left)

/-- The encoding of `v` has at most `isize::MAX` bytes (true of every byte string a program can hold). -/
def Holdable {α : Type} (p : Payload α) (v : α) : Prop :=
  ∀ b, p.enc v = .ok b → b.length ≤ 2 ^ 63 - 1

/-- Layout of an error payload: 2 byte code, 4 byte length, message. -/
def ErrorLayout (d : ErrorEventData) (bs : Bytes) : Prop :=
  ∃ cb lb, BigEndian 2 d.code.toNat cb ∧ BigEndian 4 (stringBytes d.message).length lb ∧
    bs = cb ++ lb ++ stringBytes d.message

/-- Layout of a tandem payload holding the two byte strings. -/
def TandemLayout (b1 b2 bs : Bytes) : Prop :=
  ∃ l1 l2, BigEndian 8 b1.length l1 ∧ BigEndian 8 b2.length l2 ∧ bs = l1 ++ b1 ++ l2 ++ b2

/-- The position of a format in the documented preference order. -/
def preference : Format → Nat
  | .messagepack => 0
  | .bincode => 1
  | .postcard => 2
  | .json => 3

/-- The shape of a nested tandem payload. -/
inductive Shape where
  | leaf
  | node (l r : Shape)

/-- Values of a shape: `TandemPayload` at the nodes, `α` at the leaves. -/
def Shape.Val (α : Type) : Shape → Type
  | .leaf => α
  | .node l r => l.Val α × r.Val α

/-- The payload type of a shape. -/
def Shape.payload {α : Type} (p : Payload α) : (s : Shape) → Payload (s.Val α)
  | .leaf => p
  | .node l r => tandemPayload (l.payload p) (r.payload p)

/-- A predicate holds of all the leaves. -/
def Shape.AllLeaves {α : Type} (P : α → Prop) : (s : Shape) → s.Val α → Prop
  | .leaf, v => P v
  | .node l r, v => l.AllLeaves P v.1 ∧ r.AllLeaves P v.2

/-- Every sub-payload, at every node, is holdable. -/
def Shape.AllHoldable {α : Type} (p : Payload α) : (s : Shape) → s.Val α → Prop
  | .leaf, v => Holdable p v
  | .node l r, v => Holdable (Shape.payload p (.node l r)) v ∧ l.AllHoldable p v.1 ∧ r.AllHoldable p v.2

end Bromine.Spec
