import Verif.Model.Event
/-
Specification of the wire format (SPECIFICATON.md, "Binary Representation of Events"), written as a
relation between events and byte strings. It does not use the encoder or the decoder of the model; it
only shares the types `Event`, `EventHeader`, `EventType`.
-/
namespace Bromine.Spec

/-- `bs` is the big-endian representation of `x` in `n` bytes: byte `i` counted from the end has
weight `256^i`. -/
def BigEndian (n x : Nat) (bs : Bytes) : Prop :=
  bs.length = n ∧ x = (bs.reverse.zipIdx.map fun (b, i) => b.toNat * 256 ^ i).sum

/-- The UTF-8 bytes of a string. -/
def stringBytes (s : String) : Bytes := s.toByteArray.data.toList

/-- The number on the wire for an event type. -/
def typeNumber : EventType → UInt8
  | .initiator => 0
  | .response => 1
  | .end => 2
  | .error => 3

/-- Layout of the reference id: marker `0x00`, or marker `0xFF` and 8 bytes. -/
def RefLayout : Option UInt64 → Bytes → Prop
  | none, bs => bs = [0x00]
  | some r, bs => ∃ rb, BigEndian 8 r.toNat rb ∧ bs = 0xFF :: rb

/-- A string with a 2 byte length prefix. -/
def StringLayout (s : String) (bs : Bytes) : Prop :=
  ∃ lb, BigEndian 2 (stringBytes s).length lb ∧ bs = lb ++ stringBytes s

/-- Layout of the namespace: length 0 means there is none. -/
def NamespaceLayout : Option String → Bytes → Prop
  | none, bs => bs = [0, 0]
  | some s, bs => s ≠ "" ∧ StringLayout s bs

/-- `bs` is a header with the fields of `h`, format version `ver`, followed by `extra` bytes that a reader
of this version does not know. -/
def HeaderLayout (h : EventHeader) (ver extra bs : Bytes) : Prop :=
  ∃ idb refb nsb nameb,
    ver.length = 3 ∧ ver.head? = some 0 ∧
    BigEndian 8 h.id.toNat idb ∧ RefLayout h.refId refb ∧
    NamespaceLayout h.ns nsb ∧ StringLayout h.name nameb ∧
    bs = ver ++ idb ++ [typeNumber h.eventType] ++ refb ++ nsb ++ nameb ++ extra

/-- `bs` is a frame carrying the event `e`, with format version `ver` and unknown header bytes `extra`. -/
def FrameLayout (e : Event) (ver extra bs : Bytes) : Prop :=
  ∃ tlb hlb hdr,
    HeaderLayout e.header ver extra hdr ∧
    BigEndian 8 (hdr.length + e.data.length) tlb ∧ BigEndian 2 hdr.length hlb ∧
    bs = tlb ++ hlb ++ hdr ++ e.data

/-- Number of bytes of the text of a namespace; none takes no bytes. -/
def nsSize : Option String → Nat
  | some s => (stringBytes s).length
  | none => 0

/-- Number of bytes the header of `h` takes on the wire. -/
def headerSize (h : EventHeader) : Nat :=
  3 + 8 + 1 + (if h.refId.isSome then 9 else 1)
  + (2 + nsSize h.ns)
  + (2 + (stringBytes h.name).length)

/-- The events that the format can represent: the header fits its 16 bit length and a namespace, if there
is one, is not empty. -/
def Fits (e : Event) : Prop := headerSize e.header ≤ 65535 ∧ e.header.ns ≠ some ""

instance (e : Event) : Decidable (Fits e) := inferInstanceAs (Decidable (_ ∧ _))

/-- No payload is longer than a Rust allocation can be (`isize::MAX`). -/
def Allocatable (e : Event) : Prop := e.data.length ≤ 2 ^ 63 - 1

instance (e : Event) : Decidable (Allocatable e) := inferInstanceAs (Decidable (_ ≤ _))

end Bromine.Spec
