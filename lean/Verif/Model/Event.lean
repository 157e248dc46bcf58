import Verif.Model.Bytes
/-
`src/events/event.rs`: events and their binary representation.
-/
namespace Bromine

/-- `EventType`, event.rs:32-39 (`#[repr(u8)]`, discriminants 0..3). -/
inductive EventType where
  | initiator
  | response
  | end
  | error
deriving DecidableEq, Repr

/-- `u8::from(EventType)` (derived `IntoPrimitive`), event.rs:32-39. -/
def EventType.toU8 : EventType → UInt8
  | .initiator => 0
  | .response => 1
  | .end => 2
  | .error => 3

/-- `EventType::try_from(u8)` (derived `TryFromPrimitive`), event.rs:32-39. -/
def EventType.ofU8? (b : UInt8) : Option EventType :=
  if b = 0 then some .initiator
  else if b = 1 then some .response
  else if b = 2 then some .end
  else if b = 3 then some .error
  else none

/-- `EventHeader`, event.rs:24-30. -/
structure EventHeader where
  id : UInt64
  eventType : EventType
  refId : Option UInt64
  ns : Option String
  name : String
deriving DecidableEq, Repr

/-- `Event`, event.rs:18-21. -/
structure Event where
  header : EventHeader
  data : Bytes
deriving DecidableEq, Repr

namespace Event
/-- `Event::id`, event.rs:92-94. -/
def id (e : Event) : UInt64 := e.header.id
/-- `Event::event_type`, event.rs:98-100. -/
def eventType (e : Event) : EventType := e.header.eventType
/-- `Event::reference_id`, event.rs:105-107. -/
def referenceId (e : Event) : Option UInt64 := e.header.refId
/-- `Event::namespace`, event.rs:126-128. -/
def ns (e : Event) : Option String := e.header.ns
/-- `Event::name`, event.rs:132-134. -/
def name (e : Event) : String := e.header.name
/-- `Event::data_raw`, event.rs:120-122. -/
def dataRaw (e : Event) : Bytes := e.data

/-- `Event::new`, event.rs:73-88. The id, in the code the result of `generate_event_id()`
(see `Model/EventId.lean`), is an argument here. -/
def new (id : UInt64) (ns : Option String) (name : String) (data : Bytes)
    (refId : Option UInt64) (ty : EventType) : Event :=
  { header := { id := id, eventType := ty, refId := refId, ns := ns, name := name }, data := data }

/-- `Event::initiator`, event.rs:45-47. -/
def initiator (id : UInt64) (ns : Option String) (name : String) (data : Bytes) : Event :=
  new id ns name data none .initiator
/-- `Event::response`, event.rs:52-54. -/
def response (id : UInt64) (ns : Option String) (name : String) (data : Bytes) (refId : UInt64) : Event :=
  new id ns name data (some refId) .response
/-- `Event::error`, event.rs:59-61. -/
def error (id : UInt64) (ns : Option String) (name : String) (data : Bytes) (refId : UInt64) : Event :=
  new id ns name data (some refId) .error
/-- `Event::end`, event.rs:67-69. Note that the code passes `EventType::Response` (line 68). -/
def «end» (id : UInt64) (ns : Option String) (name : String) (data : Bytes) (refId : UInt64) : Event :=
  new id ns name data (some refId) .response
end Event

/-- `FORMAT_VERSION`, event.rs:12. -/
def FORMAT_VERSION : Bytes := [0, 9, 0]

/-- `EventHeader::into_bytes`, event.rs:180-202. `len as u16` is `UInt16.ofNat`. -/
def EventHeader.intoBytes (h : EventHeader) : Bytes :=
  FORMAT_VERSION
  ++ putU64 h.id
  ++ putU8 h.eventType.toU8
  ++ (match h.refId with
      | some r => putU8 0xFF ++ putU64 r
      | none => putU8 0x00)
  ++ (match h.ns with
      | some ns => putU16 (UInt16.ofNat (utf8 ns).length) ++ utf8 ns
      | none => putU16 0)
  ++ putU16 (UInt16.ofNat (utf8 h.name).length)
  ++ utf8 h.name

/-- `Event::into_bytes`, event.rs:161-175; always `Ok`. The sum in line 165 is a `u64` addition;
it cannot overflow because a `Bytes` is shorter than 2^63 (it is computed modulo 2^64 here). -/
def Event.intoBytes (e : Event) : Outcome Bytes :=
  let headerBytes := e.header.intoBytes
  let headerLength := UInt16.ofNat headerBytes.length
  let totalLength : UInt64 := UInt64.ofNat headerLength.toNat + UInt64.ofNat e.data.length
  .ok (putU64 totalLength ++ putU16 headerLength ++ headerBytes ++ e.data)

/-- The text produced by `Error::unsupported_version_vec`, error.rs:51-58: every byte followed by a
dot, the last character removed (`String::pop`). -/
def versionString (v : Bytes) : String :=
  let s := v.foldl (fun acc b => acc ++ toString b.toNat ++ ".") ""
  String.ofList s.toList.dropLast

/-- `EventHeader::read_version`, event.rs:226-235. -/
def readVersion (r : Bytes) : Outcome (Bytes × Bytes) := do
  let (version, r) ← readExact 3 r
  if version[0]? ≠ FORMAT_VERSION[0]? then
    .err (.unsupportedVersion (versionString version))
  else
    pure (version, r)

/-- `EventHeader::read_ref_id`, event.rs:239-248. -/
def readRefId (r : Bytes) : Outcome (Option UInt64 × Bytes) := do
  let (exists_, r) ← readU8 r
  if exists_ = 0x00 then
    pure (none, r)
  else if exists_ = 0xFF then do
    let (id, r) ← readU64 r
    pure (some id, r)
  else
    .err .corruptedEvent

/-- `EventHeader::read_string`, event.rs:271-275. -/
def readString (length : Nat) (r : Bytes) : Outcome (String × Bytes) := do
  let (b, r) ← readExact length r
  match fromUtf8 b with
  | some s => pure (s, r)
  | none => .err .corruptedEvent

/-- `EventHeader::read_namespace`, event.rs:260-268. -/
def readNamespace (len : UInt16) (r : Bytes) : Outcome (Option String × Bytes) :=
  if len.toNat > 0 then do
    let (s, r) ← readString len.toNat r
    pure (some s, r)
  else
    pure (none, r)

/-- `EventHeader::read_name`, event.rs:252-256. -/
def readName (r : Bytes) : Outcome (String × Bytes) := do
  let (len, r) ← readU16 r
  readString len.toNat r

/-- `EventHeader::from_read`, event.rs:205-222. -/
def EventHeader.fromRead (r : Bytes) : Outcome (EventHeader × Bytes) := do
  let (_, r) ← readVersion r
  let (id, r) ← readU64 r
  let (tyNum, r) ← readU8 r
  match EventType.ofU8? tyNum with
  | none => .err .corruptedEvent
  | some ty => do
    let (refId, r) ← readRefId r
    let (nsLen, r) ← readU16 r
    let (ns, r) ← readNamespace nsLen r
    let (name, r) ← readName r
    pure ({ id := id, eventType := ty, refId := refId, ns := ns, name := name }, r)

/-- A source of bytes as seen through tokio's `AsyncReadExt`: `readExact n` is `read_exact` into a
buffer of `n` bytes, `readInt n` is `read_u16` / `read_u32` / `read_u64` for `n` = 2, 4, 8. They are kept
apart because they treat partially filled buffers of a pending read differently. -/
structure Source (σ : Type) where
  readExact : Nat → σ → Outcome (Bytes × σ)
  readInt : Nat → σ → Outcome (Bytes × σ)

/-- The largest allocation Rust's `Vec` permits: `isize::MAX`. -/
def isizeMax : Nat := 2 ^ 63 - 1

/-- `vec![0u8; n]`: panics with "capacity overflow" beyond `isize::MAX` bytes. (Running out of memory,
which aborts the process, is not modelled.) -/
def allocVec (n : Nat) : Outcome Unit :=
  if n ≤ isizeMax then .ok () else .panic

/-- `total_length - header_length as u64`, event.rs:141: panics on underflow when overflow checks are
compiled in (`checks = true`, debug profile), wraps modulo 2^64 otherwise. -/
def subU64 (checks : Bool) (a b : UInt64) : Outcome UInt64 :=
  if checks && decide (a < b) then .panic else .ok (a - b)

/-- `Event::from_async_read`, event.rs:138-157, over any source of bytes. -/
def Event.fromAsyncRead {σ : Type} (S : Source σ) (checks : Bool) (s : σ) : Outcome (Event × σ) := do
  let (tl, s) ← S.readInt 8 s
  let totalLength := UInt64.ofNat (beVal tl)
  let (hl, s) ← S.readInt 2 s
  let headerLength := UInt16.ofNat (beVal hl)
  let dataLength ← subU64 checks totalLength (UInt64.ofNat headerLength.toNat)
  let (headerBytes, s) ← S.readExact headerLength.toNat s
  let (header, _) ← EventHeader.fromRead headerBytes
  allocVec dataLength.toNat
  let (buf, s) ← S.readExact dataLength.toNat s
  pure ({ header := header, data := buf }, s)

/-- The source consisting of the bytes `σ` that are still to come, followed by the end of the stream. -/
def byteSource : Source Bytes where
  readExact := readExact
  readInt := readExact

/-- `Event::from_async_read` on a reader which still delivers exactly the bytes `r` and then EOF
(e.g. a `Cursor`, as in benches/deserialization_benchmark.rs). -/
def Event.fromBytes (checks : Bool) (r : Bytes) : Outcome (Event × Bytes) :=
  Event.fromAsyncRead byteSource checks r

/-- One answer of a transport to `poll_read`. -/
inductive Chunk where
  /-- `Poll::Pending`; the task is woken when the next answer is available -/
  | pending
  /-- at least one byte is available -/
  | data (b : UInt8) (bs : Bytes)
deriving DecidableEq, Repr

/-- The bytes delivered by an answer. -/
def Chunk.bytes : Chunk → Bytes
  | .pending => []
  | .data b bs => b :: bs

/-- A transport, given by all its future answers; when they are used up it is either at EOF
(`closed = true`) or silent for ever. -/
structure Script where
  chunks : List Chunk
  closed : Bool
deriving DecidableEq, Repr

/-- All the bytes that will still arrive. -/
def Script.bytes (s : Script) : Bytes := (s.chunks.map Chunk.bytes).flatten

/-- Put the unread rest of a chunk back. -/
def pushRest (rest : Bytes) (cs : List Chunk) : List Chunk :=
  match rest with
  | [] => cs
  | b :: bs => .data b bs :: cs

/-- tokio's `ReadExact::poll` / `ReadInt::poll` driven to completion: poll the transport until `n` bytes
have been collected (`acc` holds those already there); a poll that fills nothing means EOF and
is an `UnexpectedEof` error. One poll delivers at most the current chunk. -/
def pollExact (closed : Bool) : Nat → Bytes → List Chunk → Outcome (Bytes × List Chunk)
  | 0, acc, cs => .ok (acc, cs)
  | _ + 1, _, [] => if closed then .err (.io .unexpectedEof) else .hang
  | n + 1, acc, .pending :: cs => pollExact closed (n + 1) acc cs
  | n + 1, acc, .data b bs :: cs =>
    if n + 1 ≤ (b :: bs).length then
      .ok (acc ++ (b :: bs).take (n + 1), pushRest ((b :: bs).drop (n + 1)) cs)
    else
      pollExact closed (n + 1 - (b :: bs).length) (acc ++ (b :: bs)) cs
termination_by _ _ cs => cs.length

/-- A plain transport (tcp.rs, unix_socket.rs) as a source. A plain transport fills nothing when it
returns `Pending`, so `read_exact` and `read_u64` behave alike. -/
def scriptSource : Source Script where
  readExact n s := (pollExact s.closed n [] s.chunks).map fun (b, cs) => (b, { s with chunks := cs })
  readInt n s := (pollExact s.closed n [] s.chunks).map fun (b, cs) => (b, { s with chunks := cs })

/-- The read loop of `handle_connection`, ipc/mod.rs:24 (`while let Ok(event) = from_async_read(..)`):
the events it hands on, until the first error. `fuel` bounds the number of iterations. -/
def readLoop {σ : Type} (S : Source σ) (checks : Bool) : Nat → σ → List Event × Outcome Unit
  | 0, _ => ([], .ok ())
  | fuel + 1, s =>
    match Event.fromAsyncRead S checks s with
    | .ok (e, s) =>
      let (es, r) := readLoop S checks fuel s
      (e :: es, r)
    | .err e => ([], .err e)
    | .panic => ([], .panic)
    | .hang => ([], .hang)

end Bromine
