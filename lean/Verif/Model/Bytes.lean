import Verif.Model.Outcome
/-
Byte-level primitives: big-endian integers, `Read::read_exact` on in-memory readers,
UTF-8 strings.
-/
namespace Bromine

/-- Big-endian bytes of `x`, `n` of them (`BufMut::put_u16/put_u32/put_u64` for n = 2, 4, 8). -/
def beBytes : Nat → Nat → Bytes
  | 0, _ => []
  | n + 1, x => UInt8.ofNat (x / 256 ^ n) :: beBytes n x

/-- Value of a big-endian byte string (`ReadBytesExt::read_u16/u32/u64::<BigEndian>` and tokio's
`read_u16/u32/u64`, after the bytes have been read). -/
def beVal (bs : Bytes) : Nat := bs.foldl (fun acc b => acc * 256 + b.toNat) 0

/-- `BufMut::put_u8`. -/
def putU8 (x : UInt8) : Bytes := [x]
/-- `BufMut::put_u16` (big endian). -/
def putU16 (x : UInt16) : Bytes := beBytes 2 x.toNat
/-- `BufMut::put_u32` (big endian). -/
def putU32 (x : UInt32) : Bytes := beBytes 4 x.toNat
/-- `BufMut::put_u64` (big endian). -/
def putU64 (x : UInt64) : Bytes := beBytes 8 x.toNat

/-- `String::into_bytes` / `Bytes::from(String)`. -/
def utf8 (s : String) : Bytes := s.toByteArray.data.toList

/-- `String::from_utf8(..)`: `none` models the `Utf8Error`. -/
def fromUtf8 (bs : Bytes) : Option String := String.fromUTF8? ⟨bs.toArray⟩

/-- `Read::read_exact` on an in-memory reader (`Cursor<Vec<u8>>`, `&[u8]`) that still holds `r`:
fails with `UnexpectedEof` if fewer than `n` bytes are left. -/
def readExact (n : Nat) (r : Bytes) : Outcome (Bytes × Bytes) :=
  if n ≤ r.length then .ok (r.take n, r.drop n) else .err (.io .unexpectedEof)

/-- `ReadBytesExt::read_u8`. -/
def readU8 (r : Bytes) : Outcome (UInt8 × Bytes) := do
  let (b, r) ← readExact 1 r
  pure (UInt8.ofNat (beVal b), r)

/-- `ReadBytesExt::read_u16::<BigEndian>`. -/
def readU16 (r : Bytes) : Outcome (UInt16 × Bytes) := do
  let (b, r) ← readExact 2 r
  pure (UInt16.ofNat (beVal b), r)

/-- `ReadBytesExt::read_u32::<BigEndian>`. -/
def readU32 (r : Bytes) : Outcome (UInt32 × Bytes) := do
  let (b, r) ← readExact 4 r
  pure (UInt32.ofNat (beVal b), r)

/-- `ReadBytesExt::read_u64::<BigEndian>`. -/
def readU64 (r : Bytes) : Outcome (UInt64 × Bytes) := do
  let (b, r) ← readExact 8 r
  pure (UInt64.ofNat (beVal b), r)

end Bromine
