import Verif.Lemmas.Stream
import Verif.Spec.Payload
/-
C09-C13, C49: payloads.
-/
namespace Bromine.Props
open Bromine Bromine.Spec

theorem bigEndian_put32 {x : UInt32} {bs : Bytes} : BigEndian 4 x.toNat bs ↔ bs = putU32 x := by
  rw [bigEndian_iff]
  constructor
  · rintro ⟨h1, h2⟩
    exact beVal_inj (by simp [h1]) (by simp [h2])
  · rintro rfl; simp

/-! ### C09 error payloads -/

/-- C09: the decoder accepts exactly the documented layout and returns exactly the encoded values. -/
theorem C09_error_decoder_iff (r rest : Bytes) (d : ErrorEventData) :
    errorPayload.dec r = .ok (d, rest) ↔ ∃ bs, ErrorLayout d bs ∧ r = bs ++ rest := by
  simp only [errorPayload]
  unfold ErrorEventData.fromPayload
  constructor
  · intro h
    simp only [Outcome.bind_eq_ok, Prod.exists] at h
    obtain ⟨c, r1, h1, l, r2, h2, b, r3, h3, h4⟩ := h
    have h1 := readU16_eq_ok.mp h1
    have h2 := readU32_eq_ok.mp h2
    obtain ⟨h3, h3'⟩ := readExact_eq_ok.mp h3
    split at h4
    · rename_i m hm
      simp only [Outcome.pure_eq, Outcome.ok.injEq, Prod.mk.injEq] at h4
      obtain ⟨rfl, rfl⟩ := h4
      have hm := utf8_of_fromUtf8 hm
      subst hm
      refine ⟨_, ⟨putU16 c, putU32 l, bigEndian_put16.mpr rfl, ?_, rfl⟩, ?_⟩
      · rw [stringBytes_eq, h3']; exact bigEndian_put32.mpr rfl
      · rw [h1, h2, h3]; simp [stringBytes_eq]
    · cases h4
  · rintro ⟨bs, ⟨cb, lb, hc, hl, rfl⟩, rfl⟩
    have hlt := bigEndian_lt hl
    have e : (UInt32.ofNat (stringBytes d.message).length).toNat = (stringBytes d.message).length :=
      toNat32 (by omega)
    rw [← e] at hl
    rw [bigEndian_put16.mp hc, bigEndian_put32.mp hl]
    simp only [List.append_assoc, readU16_put, readU32_put, Outcome.bind_ok, e]
    rw [readExact_append rfl]
    simp [stringBytes_eq]

/-- C09: round trip of every code and every message below 4 GiB, whatever follows. -/
theorem C09_error_roundtrip (d : ErrorEventData) (h : (stringBytes d.message).length < 2 ^ 32) :
    ∃ b, errorPayload.enc d = .ok b ∧ ∀ rest, errorPayload.dec (b ++ rest) = .ok (d, rest) := by
  refine ⟨_, rfl, fun rest => (C09_error_decoder_iff _ _ _).mpr ⟨_, ⟨putU16 d.code, _, bigEndian_put16.mpr rfl, ?_, rfl⟩, rfl⟩⟩
  have := bigEndian_put32 (x := UInt32.ofNat (utf8 d.message).length) |>.mpr rfl
  rw [toNat32 (by rw [← stringBytes_eq]; exact h)] at this
  exact this

/-- C09, exactness of the bound: a longer message never survives. -/
theorem C09_error_oversized (d : ErrorEventData) (h : 2 ^ 32 ≤ (stringBytes d.message).length) (b rest left : Bytes) :
    errorPayload.dec (b ++ rest) ≠ .ok (d, left) := by
  intro hd
  obtain ⟨bs, ⟨cb, lb, _, hl, _⟩, _⟩ := (C09_error_decoder_iff _ _ _).mp hd
  have := bigEndian_lt hl
  omega

example : (stringBytes (ErrorEventData.mk 500 "Message(\"käse\")").message).length < 2 ^ 32 := by decide

/-! ### C10 tandem payloads -/

/-- The two length prefixed blocks of a tandem. -/
theorem tandemLayout_put {b1 b2 : Bytes} (h1 : b1.length ≤ 2 ^ 63 - 1) (h2 : b2.length ≤ 2 ^ 63 - 1) :
    TandemLayout b1 b2 (putU64 (UInt64.ofNat b1.length) ++ b1 ++ putU64 (UInt64.ofNat b2.length) ++ b2) :=
  ⟨_, _, bigEndian_nat64.mpr ⟨by omega, rfl⟩, bigEndian_nat64.mpr ⟨by omega, rfl⟩, rfl⟩

/-- C10, independence: decoding a tandem that holds `b1` and `b2` decodes each half from exactly its own
bytes, whatever the halves leave unread and whatever follows. -/
theorem C10_halves_independent {α β : Type} (p : Payload α) (q : Payload β) (b1 b2 bs rest : Bytes)
    (hl : TandemLayout b1 b2 bs) (h1 : b1.length ≤ 2 ^ 63 - 1) (h2 : b2.length ≤ 2 ^ 63 - 1) :
    (tandemPayload p q).dec (bs ++ rest)
      = (p.dec b1).bind fun x => (q.dec b2).bind fun y => .ok ((x.1, y.1), rest) := by
  obtain ⟨l1, l2, e1, e2, rfl⟩ := hl
  obtain ⟨k1, rfl⟩ := bigEndian_nat64.mp e1
  obtain ⟨k2, rfl⟩ := bigEndian_nat64.mp e2
  have a1 : allocVec b1.length = .ok () := by unfold allocVec; rw [if_pos (by unfold isizeMax; omega)]
  have a2 : allocVec b2.length = .ok () := by unfold allocVec; rw [if_pos (by unfold isizeMax; omega)]
  simp only [tandemPayload]
  unfold tandemDec
  simp only [List.append_assoc, readU64_put, Outcome.bind_ok, toNat64 k1, a1]
  rw [readExact_append rfl]
  simp only [readU64_put, Outcome.bind_ok, toNat64 k2, a2]
  rw [readExact_append rfl]
  rfl

/-- C10: a tandem of two values that round-trip round-trips, and exactly the tandem's bytes are consumed. -/
theorem C10_tandem_roundtrip {α β : Type} (p : Payload α) (q : Payload β) (x : α) (y : β)
    (hx : RoundTrips p x) (hy : RoundTrips q y) (sx : Holdable p x) (sy : Holdable q y) :
    ∃ b, (tandemPayload p q).enc (x, y) = .ok b ∧
      ∀ rest, (tandemPayload p q).dec (b ++ rest) = .ok ((x, y), rest) := by
  obtain ⟨b1, e1, l1, d1⟩ := hx
  obtain ⟨b2, e2, l2, d2⟩ := hy
  refine ⟨putU64 (UInt64.ofNat b1.length) ++ b1 ++ putU64 (UInt64.ofNat b2.length) ++ b2, ?_, fun rest => ?_⟩
  · simp [tandemPayload, tandemEnc, e1, e2]
  · rw [C10_halves_independent p q b1 b2 _ rest (tandemLayout_put (sx b1 e1) (sy b2 e2)) (sx b1 e1) (sy b2 e2),
      d1, d2]
    rfl

/-- C10: a tandem reports the first failing half. -/
theorem C10_tandem_enc_error {α β : Type} (p : Payload α) (q : Payload β) (x : α) (y : β) :
    (tandemPayload p q).enc (x, y) =
      (p.enc x).bind fun b1 => (q.enc y).bind fun b2 =>
        .ok (putU64 (UInt64.ofNat b1.length) ++ b1 ++ putU64 (UInt64.ofNat b2.length) ++ b2) := rfl

/-- C10, nesting to any depth and of any shape. -/
theorem C10_nested_roundtrip {α : Type} (p : Payload α) (s : Shape) (v : s.Val α)
    (hl : s.AllLeaves (RoundTrips p) v) (hh : s.AllHoldable p v) :
    RoundTrips (s.payload p) v := by
  induction s with
  | leaf => exact hl
  | node l r ihl ihr =>
    obtain ⟨hl1, hl2⟩ := hl
    obtain ⟨_, hh1, hh2⟩ := hh
    have key : ∀ (s : Shape) (w : s.Val α), s.AllHoldable p w → Holdable (s.payload p) w := by
      intro s w h
      cases s with
      | leaf => exact h
      | node => exact h.1
    obtain ⟨b, h1, h2⟩ := C10_tandem_roundtrip (l.payload p) (r.payload p) v.1 v.2
      (ihl _ hl1 hh1) (ihr _ hl2 hh2) (key _ _ hh1) (key _ _ hh2)
    exact ⟨b, h1, [], by have := h2 []; rw [List.append_nil] at this; exact this⟩

/-- A raw byte half reads its reader to the end; it is a tandem component like any other. -/
example : ∃ b, (tandemPayload bytePayload errorPayload).enc ([1, 2, 3], ⟨7, "x"⟩) = .ok b ∧
    ∀ rest, (tandemPayload bytePayload errorPayload).dec (b ++ rest) = .ok (([1, 2, 3], ⟨7, "x"⟩), rest) :=
  C10_tandem_roundtrip _ _ _ _ ⟨_, rfl, [], rfl⟩
    (by
      obtain ⟨b, h1, h2⟩ := C09_error_roundtrip ⟨7, "x"⟩ (by decide)
      exact ⟨b, h1, [], by simpa using h2 []⟩)
    (by rintro b ⟨⟩; decide) (by rintro b ⟨⟩; decide)

/-! ### C11 raw bytes -/

/-- C11: the bytes on the wire are the payload's bytes, and decoding takes all the bytes there are. -/
theorem C11_byte_payload (b : Bytes) :
    bytePayload.enc b = .ok b ∧ bytePayload.dec b = .ok (b, []) := ⟨rfl, rfl⟩

/-- C11 through an event: what the peer's `payload::<BytePayload>()` returns is what was sent. -/
theorem C11_byte_payload_event (e : Event) (b : Bytes) (hb : bytePayload.enc b = .ok e.data)
    (hf : Fits e) (ha : Allocatable e) (checks : Bool) (rest : Bytes) :
    ∃ bs e', e.intoBytes = .ok bs ∧ Event.fromBytes checks (bs ++ rest) = .ok (e', rest) ∧
      e'.payload bytePayload = .ok b := by
  obtain ⟨bs, h1, h2⟩ := intoBytes_frameLayout hf ha
  refine ⟨bs, e, h1, fromBytes_eq_ok.mpr ⟨ha, _, _, bs, h2, rfl⟩, ?_⟩
  cases hb
  rfl

/-- C11 for `()`, built without serde: an event emitted with `()` has no data, and arrives as such. -/
theorem C11_unit_event (e : Event) (hb : unitEnc () = .ok e.data) (hf : Fits e) (ha : Allocatable e) (checks : Bool) (rest : Bytes) :
    ∃ bs e', e.intoBytes = .ok bs ∧ Event.fromBytes checks (bs ++ rest) = .ok (e', rest) ∧ e'.data = [] := by
  obtain ⟨bs, h1, h2⟩ := intoBytes_frameLayout hf ha
  refine ⟨bs, e, h1, fromBytes_eq_ok.mpr ⟨ha, _, _, bs, h2, rfl⟩, ?_⟩
  exact (Outcome.ok.inj hb).symm

/-- And it never fails. -/
example : ∃ e : Event, unitEnc () = .ok e.data ∧ Fits e ∧ Allocatable e := ⟨{ header := { id := 5, eventType := .initiator, refId := none, ns := none, name := "ping" }, data := [] }, rfl, by decide, by decide⟩

/-! ### C12 serde payloads -/

/-- What is assumed of an external format crate for one value: it decodes what it encoded. -/
def FormatInverse {α : Type} (impl : SerdeImpl α) (f : Format) (v : α) : Prop :=
  ∀ b, impl.ser f v = .ok b → ∃ left, impl.de f b = .ok (v, left)

theorem fromPrimitive_toU8 (feats : Features) (f : Format) :
    Format.fromPrimitive feats f.toU8.toNat
      = if feats f then .ok f else .error (.unknownFormat f.toU8.toNat) := by
  cases f <;> rfl

/-- C12: a value encoded with format `f` on one build is decoded as the same value, with the same format
recorded, on every build that has `f` enabled, whatever else is enabled there. -/
theorem C12_serde_roundtrip {α : Type} (sender receiver : Features) (impl : SerdeImpl α) (f : Format) (v : α)
    (b : Bytes) (hs : (serdePayload sender impl).enc (f, v) = .ok b) (hr : receiver f = true)
    (hi : FormatInverse impl f v) :
    ∃ left, (serdePayload receiver impl).dec b = .ok ((f, v), left) := by
  simp only [serdePayload, serdeEnc] at hs
  unfold Format.serialize at hs
  split at hs
  · cases hser : impl.ser f v with
    | error e => rw [hser] at hs; cases hs
    | ok d =>
      rw [hser] at hs
      simp only [liftSer, Outcome.bind_ok, Outcome.pure_eq, Outcome.ok.injEq] at hs
      subst hs
      obtain ⟨left, hd⟩ := hi d hser
      refine ⟨left, ?_⟩
      simp only [serdePayload, serdeDec, readU8_put, Outcome.bind_ok, fromPrimitive_toU8, hr, if_true, liftSer,
        Format.deserialize, hd, Outcome.pure_eq]
  · cases hs

/-- C12: through the blanket impls (`emit(name, value)` and `event.payload::<T>()`): the receiver's own
default serializer is irrelevant. -/
theorem C12_default_roundtrip {α : Type} (sender receiver : Features) (impl : SerdeImpl α)
    (senderDefault receiverDefault : Format) (v : α) (b : Bytes)
    (hs : (serdeDefault sender impl senderDefault).enc v = .ok b) (hr : receiver senderDefault = true)
    (hi : FormatInverse impl senderDefault v) :
    ∃ left, (serdeDefault receiver impl receiverDefault).dec b = .ok (v, left) := by
  obtain ⟨left, h⟩ := C12_serde_roundtrip sender receiver impl senderDefault v b hs hr hi
  refine ⟨left, ?_⟩
  simp only [serdePayload] at h
  simp [serdeDefault, h]

/-- C12: encoding with a format that is not enabled is refused. -/
theorem C12_disabled_sender {α : Type} (feats : Features) (impl : SerdeImpl α) (f : Format) (v : α)
    (h : feats f = false) :
    (serdePayload feats impl).enc (f, v) = .err (.serialization (.unavailableFormat f)) := by
  simp [serdePayload, serdeEnc, Format.serialize, h, liftSer]

/-- C12: a payload whose format id is unknown or not enabled here is refused with that id; the format
crates are not called (the result does not depend on `impl`). -/
theorem C12_disabled_receiver {α : Type} (feats : Features) (impl : SerdeImpl α) (id : UInt8) (r : Bytes)
    (h : ∀ f : Format, f.toU8 = id → feats f = false) :
    (serdePayload feats impl).dec (id :: r) = .err (.serialization (.unknownFormat id.toNat)) := by
  have hr : readU8 (id :: r) = .ok (id, r) := readU8_put id r
  simp only [serdePayload, serdeDec, hr, Outcome.bind_ok]
  have key : Format.fromPrimitive feats id.toNat = .error (.unknownFormat id.toNat) := by
    unfold Format.fromPrimitive
    have h0 := h .messagepack
    have h1 := h .bincode
    have h2 := h .postcard
    have h3 := h .json
    simp only [Format.toU8] at h0 h1 h2 h3
    have inj : ∀ n : Nat, id.toNat = n → UInt8.ofNat n = id := by
      rintro n rfl; simp
    split
    · rename_i hn; rw [h0 (inj 0 hn)]; simp
    · rename_i hn; rw [h1 (inj 1 hn)]; simp
    · rename_i hn; rw [h2 (inj 2 hn)]; simp
    · rename_i hn; rw [h3 (inj 3 hn)]; simp
    · rfl
  simp [key, liftSer]

/-- C12: if a payload decodes at all, then with the enabled format whose id is its first byte, applied to the
rest. -/
theorem C12_decodes_with_declared_format {α : Type} (feats : Features) (impl : SerdeImpl α) (r left : Bytes)
    (f : Format) (v : α) (h : (serdePayload feats impl).dec r = .ok ((f, v), left)) :
    feats f = true ∧ ∃ body, r = f.toU8 :: body ∧ impl.de f body = .ok (v, left) := by
  simp only [serdePayload, serdeDec, Outcome.bind_eq_ok, Prod.exists] at h
  obtain ⟨id, r1, h1, g, h2, w, r2, h3, h4⟩ := h
  simp only [Outcome.pure_eq, Outcome.ok.injEq, Prod.mk.injEq] at h4
  obtain ⟨⟨rfl, rfl⟩, rfl⟩ := h4
  have h1 := readU8_eq_ok.mp h1
  have hid : id = g.toU8 := by
    unfold Format.fromPrimitive at h2
    have inj : ∀ n : Nat, id.toNat = n → id = UInt8.ofNat n := by
      rintro n rfl; simp
    split at h2 <;> rename_i hn
    all_goals first
      | (split at h2
         · cases h2; exact inj _ hn
         · cases h2)
      | cases h2
  unfold Format.deserialize at h3
  split at h3
  · rename_i hf
    refine ⟨hf, r1, by rw [h1, hid]; rfl, ?_⟩
    cases hd : impl.de g r1 with
    | error e => rw [hd] at h3; cases h3
    | ok p => rw [hd] at h3; simp only [liftSer, Outcome.ok.injEq] at h3; rw [h3]
  · cases h3

/-- A toy format crate that satisfies `FormatInverse`, on a build with JSON only as sender and all formats
on the receiver. -/
def toySerde : SerdeImpl UInt8 where
  ser _ v := .ok [v]
  de _ r := match r with
    | v :: r => .ok (v, r)
    | [] => .error .format

example : ∃ b left, (serdePayload (fun f => f == .json) toySerde).enc (.json, 200) = .ok b ∧
    (serdePayload (fun _ => true) toySerde).dec b = .ok ((.json, 200), left) := by
  refine ⟨[3, 200], [], by decide +kernel, by decide +kernel⟩

example : FormatInverse toySerde .json 200 := by rintro b ⟨⟩; exact ⟨[], rfl⟩

/-! ### C13 the default serializer -/

/-- C13: `first_available` exists (the build compiles) iff some format is enabled, and then it is the enabled
format of highest preference. -/
theorem C13_first_available (feats : Features) (f : Format) :
    firstAvailable feats = some f ↔
      feats f = true ∧ ∀ g, feats g = true → preference f ≤ preference g := by
  have hall : ∀ P : Format → Prop, (∀ g, P g) ↔ P .messagepack ∧ P .bincode ∧ P .postcard ∧ P .json :=
    fun P => ⟨fun h => ⟨h _, h _, h _, h _⟩, fun ⟨a, b, c, d⟩ g => by cases g <;> assumption⟩
  rw [hall]
  unfold firstAvailable firstAvailableBlocks
  cases h0 : feats .messagepack <;> cases h1 : feats .bincode <;> cases h2 : feats .postcard <;>
    cases h3 : feats .json <;> cases f <;> simp [preference, h0, h1, h2, h3]

/-- C13: a build with at least one format has a default serializer. -/
theorem C13_exists (feats : Features) : (firstAvailable feats).isSome ↔ ∃ f, feats f = true := by
  constructor
  · intro h
    obtain ⟨f, hf⟩ := Option.isSome_iff_exists.mp h
    exact ⟨f, ((C13_first_available feats f).mp hf).1⟩
  · rintro ⟨f, hf⟩
    unfold firstAvailable firstAvailableBlocks
    cases f <;> cases h0 : feats .messagepack <;> cases h1 : feats .bincode <;> cases h2 : feats .postcard <;>
      cases h3 : feats .json <;> simp_all

/-- C13: serialising with the default never reports `UnavailableFormat`. -/
theorem C13_default_usable {α : Type} (feats : Features) (impl : SerdeImpl α) (f : Format)
    (h : firstAvailable feats = some f) (v : α) :
    f.serialize feats impl v = impl.ser f v := by
  simp [Format.serialize, ((C13_first_available feats f).mp h).1]

example : firstAvailable (fun f => f == .postcard || f == .json) = some .postcard := by decide

/-! ### C49 malformed payloads -/

/-- C49: decoding an error payload never panics, whatever the bytes. -/
theorem C49_error_payload_safe (r : Bytes) : errorPayload.dec r ≠ .panic ∧ errorPayload.dec r ≠ .hang := by
  have : Tame (errorPayload.dec r) := by
    simp only [errorPayload, ErrorEventData.fromPayload]
    refine (tame_readU16 _).bind fun _ _ => (tame_readU32 _).bind fun _ _ => (tame_readExact _ _).bind fun _ _ => ?_
    split
    · exact tame_ok _
    · exact tame_err _
  exact this

/-- C49, violated for tandem payloads: the receiver of eight bytes 0xFF panics (capacity overflow). -/
theorem C49_tandem_panics {α β : Type} (p : Payload α) (q : Payload β) (rest : Bytes) :
    (tandemPayload p q).dec ([255, 255, 255, 255, 255, 255, 255, 255] ++ rest) = .panic := by
  have h : ([255, 255, 255, 255, 255, 255, 255, 255] : Bytes) = putU64 0xFFFFFFFFFFFFFFFF := by decide
  simp only [tandemPayload, tandemDec, h, readU64_put, Outcome.bind_ok]
  rw [show allocVec (0xFFFFFFFFFFFFFFFF : UInt64).toNat = .panic by decide]
  rfl

theorem tandem_panic_cause {α β : Type} (p : Payload α) (q : Payload β) (r : Bytes)
    (h : (tandemPayload p q).dec r = .panic) :
    (∃ n lb rest, 2 ^ 63 - 1 < n ∧ BigEndian 8 n lb ∧ r = lb ++ rest) ∨
    (∃ n l1 b1 lb rest, 2 ^ 63 - 1 < n ∧ BigEndian 8 b1.length l1 ∧ BigEndian 8 n lb ∧ r = l1 ++ b1 ++ lb ++ rest) ∨
    (∃ b1 b2 bs rest, TandemLayout b1 b2 bs ∧ r = bs ++ rest ∧
      (p.dec b1 = .panic ∨ (∃ x, p.dec b1 = .ok x) ∧ q.dec b2 = .panic)) := by
  have alloc : ∀ n, allocVec n = .panic → 2 ^ 63 - 1 < n := by
    intro n h; unfold allocVec at h; split at h
    · cases h
    · rename_i hn; unfold isizeMax at hn; omega
  simp only [tandemPayload, tandemDec, bind_eq_panic, (tame_readU64 _).1, (tame_readExact _ _).1, false_or,
    Prod.exists, Outcome.pure_eq, reduceCtorEq, and_false, exists_false, or_false] at h
  obtain ⟨l1, r1, h1, h⟩ := h
  have h1 := readU64_eq_ok.mp h1
  rcases h with h | ⟨_, _, b1, r2, h2, l2, r3, h3, h⟩
  · exact .inl ⟨l1.toNat, _, r1, alloc _ h, bigEndian_put64.mpr rfl, h1⟩
  · obtain ⟨h2, h2'⟩ := readExact_eq_ok.mp h2
    have h3 := readU64_eq_ok.mp h3
    have e1 : BigEndian 8 b1.length (putU64 l1) := by rw [h2']; exact bigEndian_put64.mpr rfl
    rcases h with h | ⟨_, _, b2, r4, h4, h⟩
    · exact .inr (.inl ⟨l2.toNat, _, b1, _, r3, alloc _ h, e1, bigEndian_put64.mpr rfl, by rw [h1, h2, h3]; simp⟩)
    · obtain ⟨h4, h4'⟩ := readExact_eq_ok.mp h4
      refine .inr (.inr ⟨b1, b2, _, r4, ⟨_, _, e1, by rw [h4']; exact bigEndian_put64.mpr rfl, rfl⟩,
        by rw [h1, h2, h3, h4]; simp, ?_⟩)
      rcases h with h | ⟨x, y, hx, h⟩
      · exact .inl h
      · exact .inr ⟨⟨_, hx⟩, h⟩

/-- C49: the decoding of a tandem panics exactly if one of its two length fields exceeds `isize::MAX` (and the bytes before it are there), or one of
its halves panics on the bytes of that half. -/
theorem C49_tandem_panic_iff {α β : Type} (p : Payload α) (q : Payload β) (r : Bytes) :
    (tandemPayload p q).dec r = .panic ↔
    (∃ n lb rest, 2 ^ 63 - 1 < n ∧ BigEndian 8 n lb ∧ r = lb ++ rest) ∨
    (∃ n l1 b1 lb rest, 2 ^ 63 - 1 < n ∧ BigEndian 8 b1.length l1 ∧ BigEndian 8 n lb ∧ r = l1 ++ b1 ++ lb ++ rest) ∨
    (∃ b1 b2 bs rest, TandemLayout b1 b2 bs ∧ r = bs ++ rest ∧
      (p.dec b1 = .panic ∨ (∃ x, p.dec b1 = .ok x) ∧ q.dec b2 = .panic)) := by
  have alloc : ∀ n, 2 ^ 63 - 1 < n → allocVec n = .panic := by
    intro n h; unfold allocVec; rw [if_neg (by unfold isizeMax; omega)]
  have alloc' : ∀ n, ¬ 2 ^ 63 - 1 < n → allocVec n = .ok () := by
    intro n h; unfold allocVec; rw [if_pos (by unfold isizeMax; omega)]
  have one : ∀ n lb rest, 2 ^ 63 - 1 < n → BigEndian 8 n lb → (tandemPayload p q).dec (lb ++ rest) = .panic := by
    intro n lb rest hn hb
    obtain ⟨k, rfl⟩ := bigEndian_nat64.mp hb
    simp only [tandemPayload, tandemDec, readU64_put, Outcome.bind_ok, toNat64 k, alloc n hn]
    rfl
  refine ⟨tandem_panic_cause p q r, ?_⟩
  rintro (⟨n, lb, rest, hn, hb, rfl⟩ | ⟨n, l1, b1, lb, rest, hn, hb1, hb, rfl⟩ | ⟨b1, b2, bs, rest, ⟨l1, l2, e1, e2, rfl⟩, rfl, h⟩)
  · exact one n lb rest hn hb
  · by_cases hl : 2 ^ 63 - 1 < b1.length
    · rw [List.append_assoc, List.append_assoc]; exact one _ _ _ hl hb1
    · obtain ⟨k1, rfl⟩ := bigEndian_nat64.mp hb1
      obtain ⟨k, rfl⟩ := bigEndian_nat64.mp hb
      simp only [tandemPayload]
      unfold tandemDec
      simp only [List.append_assoc, readU64_put, Outcome.bind_ok, toNat64 k1, alloc' _ hl]
      rw [readExact_append rfl]
      simp only [readU64_put, Outcome.bind_ok, toNat64 k, alloc _ hn]
      rfl
  · by_cases hl : 2 ^ 63 - 1 < b1.length
    · simp only [List.append_assoc]; exact one _ _ _ hl e1
    · by_cases hl2 : 2 ^ 63 - 1 < b2.length
      · obtain ⟨k1, rfl⟩ := bigEndian_nat64.mp e1
        obtain ⟨k, rfl⟩ := bigEndian_nat64.mp e2
        simp only [tandemPayload]
        unfold tandemDec
        simp only [List.append_assoc, readU64_put, Outcome.bind_ok, toNat64 k1, alloc' _ hl]
        rw [readExact_append rfl]
        simp only [readU64_put, Outcome.bind_ok, toNat64 k, alloc _ hl2]
        rfl
      · rw [C10_halves_independent p q b1 b2 _ rest ⟨l1, l2, e1, e2, rfl⟩ (by omega) (by omega)]
        rcases h with h | ⟨⟨x, hx⟩, h⟩
        · rw [h]; rfl
        · rw [hx]; simp only [Outcome.bind]; rw [h]

/-- Two error payloads in a tandem: only the lengths can make the decoder panic; here the second one does. -/
example : (tandemPayload errorPayload errorPayload).dec ([0, 0, 0, 0, 0, 0, 0, 1, 7, 128, 0, 0, 0, 0, 0, 0, 0]) = .panic := by decide

end Bromine.Props
