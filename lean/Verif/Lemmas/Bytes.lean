import Verif.Model.Bytes
/- Lemmas on the byte-level primitives. -/
namespace Bromine

@[simp] theorem length_beBytes (n x : Nat) : (beBytes n x).length = n := by
  induction n with
  | zero => rfl
  | succ n ih => simp [beBytes, ih]

@[simp] theorem beVal_nil : beVal [] = 0 := rfl

theorem foldl_be (bs : Bytes) (a : Nat) :
    bs.foldl (fun acc b => acc * 256 + b.toNat) a = a * 256 ^ bs.length + beVal bs := by
  induction bs generalizing a with
  | nil => simp [beVal]
  | cons b bs ih =>
    simp only [List.foldl_cons, beVal, List.length_cons]
    rw [ih, ih (0 * 256 + b.toNat)]
    rw [Nat.pow_succ]
    simp only [Nat.zero_mul, Nat.zero_add]
    rw [Nat.add_mul]
    have : a * 256 * 256 ^ bs.length = a * (256 ^ bs.length * 256) := by
      rw [Nat.mul_assoc, Nat.mul_comm 256]
    omega

theorem beVal_cons (b : UInt8) (bs : Bytes) :
    beVal (b :: bs) = b.toNat * 256 ^ bs.length + beVal bs := by
  show List.foldl _ (0 * 256 + b.toNat) bs = _
  rw [foldl_be]; simp

theorem beVal_lt (bs : Bytes) : beVal bs < 256 ^ bs.length := by
  induction bs with
  | nil => simp
  | cons b bs ih =>
    rw [beVal_cons, List.length_cons, Nat.pow_succ]
    have hb : b.toNat ≤ 255 := Nat.lt_succ_iff.mp b.toNat_lt
    have := Nat.mul_le_mul_right (256 ^ bs.length) hb
    omega

theorem beVal_beBytes (n x : Nat) : beVal (beBytes n x) = x % 256 ^ n := by
  induction n with
  | zero => simp [beBytes, Nat.mod_one]
  | succ n ih =>
    rw [beBytes, beVal_cons, ih, length_beBytes]
    have h1 : (UInt8.ofNat (x / 256 ^ n)).toNat = x / 256 ^ n % 256 := by simp
    rw [h1, Nat.pow_succ, Nat.mod_mul, Nat.mul_comm (256 ^ n)]
    omega

theorem beBytes_beVal (bs : Bytes) : beBytes bs.length (beVal bs) = bs := by
  suffices h : ∀ (bs : Bytes) (k : Nat), beBytes bs.length (k * 256 ^ bs.length + beVal bs) = bs by
    simpa using h bs 0
  intro bs
  induction bs with
  | nil => intro k; rfl
  | cons b bs ih =>
    intro k
    rw [List.length_cons, beBytes, beVal_cons]
    have hpos : 0 < 256 ^ bs.length := Nat.pow_pos (by omega)
    have hlt := beVal_lt bs
    have e : k * 256 ^ (bs.length + 1) + (b.toNat * 256 ^ bs.length + beVal bs)
        = (k * 256 + b.toNat) * 256 ^ bs.length + beVal bs := by
      rw [Nat.pow_succ, Nat.add_mul, Nat.mul_assoc k 256, Nat.mul_comm 256]; omega
    rw [e, ih]
    congr 1
    have : ((k * 256 + b.toNat) * 256 ^ bs.length + beVal bs) / 256 ^ bs.length = k * 256 + b.toNat := by
      rw [Nat.mul_comm, Nat.mul_add_div hpos, Nat.div_eq_of_lt hlt, Nat.add_zero]
    rw [this]
    apply UInt8.toNat_inj.mp
    have hb := b.toNat_lt
    simp

theorem beVal_inj {a b : Bytes} (hl : a.length = b.length) (h : beVal a = beVal b) : a = b := by
  rw [← beBytes_beVal a, ← beBytes_beVal b, hl, h]

@[simp] theorem length_putU8 (x : UInt8) : (putU8 x).length = 1 := rfl
@[simp] theorem length_putU16 (x : UInt16) : (putU16 x).length = 2 := length_beBytes _ _
@[simp] theorem length_putU32 (x : UInt32) : (putU32 x).length = 4 := length_beBytes _ _
@[simp] theorem length_putU64 (x : UInt64) : (putU64 x).length = 8 := length_beBytes _ _

@[simp] theorem beVal_putU8 (x : UInt8) : beVal (putU8 x) = x.toNat := by simp [putU8, beVal]
@[simp] theorem beVal_putU16 (x : UInt16) : beVal (putU16 x) = x.toNat := by
  rw [putU16, beVal_beBytes]; have := x.toNat_lt; omega
@[simp] theorem beVal_putU32 (x : UInt32) : beVal (putU32 x) = x.toNat := by
  rw [putU32, beVal_beBytes]; have := x.toNat_lt; omega
@[simp] theorem beVal_putU64 (x : UInt64) : beVal (putU64 x) = x.toNat := by
  rw [putU64, beVal_beBytes]; have := x.toNat_lt; omega

theorem toNat16 {x : Nat} (h : x < 65536) : (UInt16.ofNat x).toNat = x := by
  simp; omega
theorem toNat32 {x : Nat} (h : x < 2 ^ 32) : (UInt32.ofNat x).toNat = x := by
  simp; omega
theorem toNat64 {x : Nat} (h : x < 2 ^ 64) : (UInt64.ofNat x).toNat = x := by
  simp; omega

/-! ### UTF-8 -/

@[simp] theorem fromUtf8_utf8 (s : String) : fromUtf8 (utf8 s) = some s := by
  unfold fromUtf8 utf8 String.fromUTF8?
  have h : (⟨(s.toByteArray.data.toList).toArray⟩ : ByteArray) = s.toByteArray := by simp
  simp only [h]
  rw [dif_pos s.isValidUTF8]
  simp [String.fromUTF8]

theorem utf8_of_fromUtf8 {bs : Bytes} {s : String} (h : fromUtf8 bs = some s) : utf8 s = bs := by
  unfold fromUtf8 String.fromUTF8? at h
  split at h
  · injection h with h; subst h; simp [utf8, String.fromUTF8]
  · cases h

theorem fromUtf8_eq_some_iff {bs : Bytes} {s : String} : fromUtf8 bs = some s ↔ utf8 s = bs :=
  ⟨utf8_of_fromUtf8, fun h => h ▸ fromUtf8_utf8 s⟩

theorem utf8_inj {s t : String} (h : utf8 s = utf8 t) : s = t := by
  have := fromUtf8_utf8 s
  rw [h, fromUtf8_utf8] at this
  injection this with this; exact this.symm

theorem utf8_eq_nil {s : String} : utf8 s = [] ↔ s = "" := by
  constructor
  · intro h; exact utf8_inj (h.trans rfl)
  · rintro rfl; rfl

/-! ### readExact -/

theorem readExact_append {a r : Bytes} {n : Nat} (h : a.length = n) :
    readExact n (a ++ r) = .ok (a, r) := by
  subst h; simp [readExact]

theorem readExact_eq_ok {n : Nat} {r a s : Bytes} :
    readExact n r = .ok (a, s) ↔ r = a ++ s ∧ a.length = n := by
  constructor
  · intro h
    unfold readExact at h
    split at h
    · injection h with h
      injection h with h1 h2
      subst h1 h2
      exact ⟨(List.take_append_drop n r).symm, by simp; omega⟩
    · cases h
  · rintro ⟨rfl, h⟩; exact readExact_append h

@[simp] theorem readU8_put (x : UInt8) (r : Bytes) : readU8 (putU8 x ++ r) = .ok (x, r) := by
  simp [readU8, readExact_append (length_putU8 x)]
@[simp] theorem readU16_put (x : UInt16) (r : Bytes) : readU16 (putU16 x ++ r) = .ok (x, r) := by
  simp [readU16, readExact_append (length_putU16 x)]
@[simp] theorem readU32_put (x : UInt32) (r : Bytes) : readU32 (putU32 x ++ r) = .ok (x, r) := by
  simp [readU32, readExact_append (length_putU32 x)]
@[simp] theorem readU64_put (x : UInt64) (r : Bytes) : readU64 (putU64 x ++ r) = .ok (x, r) := by
  simp [readU64, readExact_append (length_putU64 x)]

theorem readU8_eq_ok {r s : Bytes} {x : UInt8} : readU8 r = .ok (x, s) ↔ r = putU8 x ++ s := by
  constructor
  · intro h
    simp only [readU8, Outcome.bind_eq_ok, Prod.exists, Outcome.pure_eq, Outcome.ok.injEq,
      Prod.mk.injEq] at h
    obtain ⟨b, s', hb, rfl, rfl⟩ := h
    obtain ⟨rfl, hl⟩ := readExact_eq_ok.mp hb
    congr 1
    have hlt := beVal_lt b
    rw [hl] at hlt
    refine beVal_inj (by simp [hl]) ?_
    simp; omega
  · rintro rfl; simp

theorem readU16_eq_ok {r s : Bytes} {x : UInt16} : readU16 r = .ok (x, s) ↔ r = putU16 x ++ s := by
  constructor
  · intro h
    simp only [readU16, Outcome.bind_eq_ok, Prod.exists, Outcome.pure_eq, Outcome.ok.injEq,
      Prod.mk.injEq] at h
    obtain ⟨b, s', hb, rfl, rfl⟩ := h
    obtain ⟨rfl, hl⟩ := readExact_eq_ok.mp hb
    congr 1
    have hlt := beVal_lt b
    rw [hl] at hlt
    refine beVal_inj (by simp [hl]) ?_
    simp; omega
  · rintro rfl; simp

theorem readU32_eq_ok {r s : Bytes} {x : UInt32} : readU32 r = .ok (x, s) ↔ r = putU32 x ++ s := by
  constructor
  · intro h
    simp only [readU32, Outcome.bind_eq_ok, Prod.exists, Outcome.pure_eq, Outcome.ok.injEq,
      Prod.mk.injEq] at h
    obtain ⟨b, s', hb, rfl, rfl⟩ := h
    obtain ⟨rfl, hl⟩ := readExact_eq_ok.mp hb
    congr 1
    have hlt := beVal_lt b
    rw [hl] at hlt
    refine beVal_inj (by simp [hl]) ?_
    simp; omega
  · rintro rfl; simp

theorem readU64_eq_ok {r s : Bytes} {x : UInt64} : readU64 r = .ok (x, s) ↔ r = putU64 x ++ s := by
  constructor
  · intro h
    simp only [readU64, Outcome.bind_eq_ok, Prod.exists, Outcome.pure_eq, Outcome.ok.injEq,
      Prod.mk.injEq] at h
    obtain ⟨b, s', hb, rfl, rfl⟩ := h
    obtain ⟨rfl, hl⟩ := readExact_eq_ok.mp hb
    congr 1
    have hlt := beVal_lt b
    rw [hl] at hlt
    refine beVal_inj (by simp [hl]) ?_
    simp; omega
  · rintro rfl; simp

end Bromine
