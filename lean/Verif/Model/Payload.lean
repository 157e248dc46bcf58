import Verif.Model.Event
/-
Payloads: `src/events/payload.rs`, `src/events/error_event.rs`, `src/events/payload_serializer/mod.rs`.

A reader (`R: Read`) is modelled by the bytes it still holds followed by its end (`&[u8]`, the only reader
the library itself passes to `from_payload`, event.rs:113); decoding returns the value and the bytes left
in the reader.
-/
namespace Bromine

/-- A payload type: `IntoPayload` (payload.rs:16-18) and `FromPayload` (payload.rs:22-24) of a type `α`.
`enc` may depend on the context (its default serializer, see `serdeDefault`), which is fixed here. -/
structure Payload (α : Type) where
  enc : α → Outcome Bytes
  dec : Bytes → Outcome (α × Bytes)

/-- `ErrorEventData`, error_event.rs:19-22. -/
structure ErrorEventData where
  code : UInt16
  message : String
deriving DecidableEq, Repr

/-- `ErrorEventData::into_payload`, error_event.rs:33-40; `len as u32` is `UInt32.ofNat`. -/
def ErrorEventData.intoPayload (d : ErrorEventData) : Outcome Bytes :=
  .ok (putU16 d.code ++ putU32 (UInt32.ofNat (utf8 d.message).length) ++ utf8 d.message)

/-- `ErrorEventData::from_payload`, error_event.rs:44-52. The `vec!` of line 47 holds less than 2^32 bytes. -/
def ErrorEventData.fromPayload (r : Bytes) : Outcome (ErrorEventData × Bytes) := do
  let (code, r) ← readU16 r
  let (len, r) ← readU32 r
  let (buf, r) ← readExact len.toNat r
  match fromUtf8 buf with
  | some message => pure ({ code := code, message := message }, r)
  | none => .err .corruptedEvent

/-- The payload type `ErrorEventData`. -/
def errorPayload : Payload ErrorEventData where
  enc := ErrorEventData.intoPayload
  dec := ErrorEventData.fromPayload

/-- `BytePayload`, payload.rs:59-75: `into_payload` hands out the bytes, `from_payload` is `read_to_end`. -/
def bytePayload : Payload Bytes where
  enc b := .ok b
  dec r := .ok (r, [])

/-- `TandemPayload::into_payload`, payload.rs:99-113. -/
def tandemEnc {α β : Type} (p : Payload α) (q : Payload β) (v : α × β) : Outcome Bytes := do
  let p1 ← p.enc v.1
  let p2 ← q.enc v.2
  pure (putU64 (UInt64.ofNat p1.length) ++ p1 ++ putU64 (UInt64.ofNat p2.length) ++ p2)

/-- `TandemPayload::from_payload`, payload.rs:116-129. `vec![0u8; n]` panics beyond `isize::MAX`. -/
def tandemDec {α β : Type} (p : Payload α) (q : Payload β) (r : Bytes) : Outcome ((α × β) × Bytes) := do
  let (len1, r) ← readU64 r
  allocVec len1.toNat
  let (b1, r) ← readExact len1.toNat r
  let (len2, r) ← readU64 r
  allocVec len2.toNat
  let (b2, r) ← readExact len2.toNat r
  let (v1, _) ← p.dec b1
  let (v2, _) ← q.dec b2
  pure ((v1, v2), r)

/-- `TandemPayload<P1, P2>`, payload.rs:81-129. -/
def tandemPayload {α β : Type} (p : Payload α) (q : Payload β) : Payload (α × β) where
  enc := tandemEnc p q
  dec := tandemDec p q

/-- `impl IntoPayload for ()` when the crate is built without serde, payload.rs:131-136. (There is no
`FromPayload for ()`; `dec` is never called.) -/
def unitEnc (_ : Unit) : Outcome Bytes := .ok []

/-! ### Serde payloads -/

/-- The enabled `serialize_*` features of a build (Cargo.toml `[features]`). -/
abbrev Features := Format → Bool

/-- The four external format crates for a type `α`: rmp-serde, bincode, postcard, serde_json, as called
from `serialize_*.rs`. Nothing is assumed about them here. -/
structure SerdeImpl (α : Type) where
  ser : Format → α → Except SerErr Bytes
  de : Format → Bytes → Except SerErr (α × Bytes)

/-- `self.serializer as u8`, payload.rs:183: the declaration order in payload_serializer/mod.rs:54-59. -/
def Format.toU8 : Format → UInt8
  | .messagepack => 0
  | .bincode => 1
  | .postcard => 2
  | .json => 3

/-- `DynamicSerializer::from_primitive`, payload_serializer/mod.rs:95-111: the arms exist only if their
feature is enabled. -/
def Format.fromPrimitive (feats : Features) (n : Nat) : Except SerErr Format :=
  match n with
  | 0 => if feats .messagepack then .ok .messagepack else .error (.unknownFormat n)
  | 1 => if feats .bincode then .ok .bincode else .error (.unknownFormat n)
  | 2 => if feats .postcard then .ok .postcard else .error (.unknownFormat n)
  | 3 => if feats .json then .ok .json else .error (.unknownFormat n)
  | n => .error (.unknownFormat n)

/-- `DynamicSerializer::serialize`, payload_serializer/mod.rs:113-135. -/
def Format.serialize {α : Type} (feats : Features) (impl : SerdeImpl α) (f : Format) (v : α) :
    Except SerErr Bytes :=
  if feats f then impl.ser f v else .error (.unavailableFormat f)

/-- `DynamicSerializer::deserialize`, payload_serializer/mod.rs:137-159. -/
def Format.deserialize {α : Type} (feats : Features) (impl : SerdeImpl α) (f : Format) (r : Bytes) :
    Except SerErr (α × Bytes) :=
  if feats f then impl.de f r else .error (.unavailableFormat f)

/-- The `cfg` blocks in the body of `DynamicSerializer::first_available`,
payload_serializer/mod.rs:62-92, that a build with the given features contains. -/
def firstAvailableBlocks (feats : Features) : List Format :=
  (if feats .messagepack then [.messagepack] else [])
  ++ (if feats .bincode && !feats .messagepack then [.bincode] else [])
  ++ (if feats .postcard && !(feats .messagepack || feats .bincode) then [.postcard] else [])
  ++ (if feats .json && !(feats .messagepack || feats .bincode || feats .postcard) then [.json] else [])

/-- `DynamicSerializer::first_available`: the body is well typed iff it consists of exactly one block;
`none` = the build fails. -/
def firstAvailable (feats : Features) : Option Format :=
  match firstAvailableBlocks feats with
  | [f] => some f
  | _ => none

/-- Conversion of a `SerializationError` into `Error::Serialization` by `?` (error.rs:14-16). -/
def liftSer {α : Type} : Except SerErr α → Outcome α
  | .ok a => .ok a
  | .error e => .err (.serialization e)

/-- `SerdePayload::try_into_bytes`, payload.rs:180-188. -/
def serdeEnc {α : Type} (feats : Features) (impl : SerdeImpl α) (f : Format) (v : α) : Outcome Bytes := do
  let data ← liftSer (f.serialize feats impl v)
  pure (putU8 f.toU8 ++ data)

/-- `SerdePayload::from_payload`, payload.rs:199-205, returning the serializer as well. -/
def serdeDec {α : Type} (feats : Features) (impl : SerdeImpl α) (r : Bytes) :
    Outcome ((Format × α) × Bytes) := do
  let (id, r) ← readU8 r
  let f ← liftSer (Format.fromPrimitive feats id.toNat)
  let (v, r) ← liftSer (f.deserialize feats impl r)
  pure ((f, v), r)

/-- `SerdePayload<T>` as a payload type. -/
def serdePayload {α : Type} (feats : Features) (impl : SerdeImpl α) : Payload (Format × α) where
  enc v := serdeEnc feats impl v.1 v.2
  dec := serdeDec feats impl

/-- The blanket impls for every serde type, payload.rs:208-222: encoding uses the context's default
serializer (context.rs:147-149), decoding uses the format id found in the payload. -/
def serdeDefault {α : Type} (feats : Features) (impl : SerdeImpl α) (ctxDefault : Format) : Payload α where
  enc v := serdeEnc feats impl ctxDefault v
  dec r := do
    let ((_, v), r) ← serdeDec feats impl r
    pure (v, r)

/-- `Event::payload`, event.rs:112-116: decodes from the event's data. -/
def Event.payload {α : Type} (p : Payload α) (e : Event) : Outcome α := do
  let (v, _) ← p.dec e.data
  pure v

end Bromine
