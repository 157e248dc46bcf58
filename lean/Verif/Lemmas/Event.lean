import Verif.Lemmas.Bytes
import Verif.Spec.Frame
/- Lemmas on the event codec. -/
namespace Bromine
open Spec

theorem sum_zipIdx_aux (bs : Bytes) (k : Nat) :
    ((bs.zipIdx k).map fun (b, i) => b.toNat * 256 ^ i).sum
      = 256 ^ k * beVal bs.reverse := by
  induction bs generalizing k with
  | nil => simp
  | cons b bs ih =>
    simp only [List.zipIdx_cons, List.map_cons, List.sum_cons, List.reverse_cons]
    rw [ih]
    have h : ∀ (as : Bytes) (b : UInt8), beVal (as ++ [b]) = beVal as * 256 + b.toNat := by
      intro as b; simp [beVal, List.foldl_append]
    rw [h, Nat.pow_succ, Nat.mul_add, Nat.mul_comm b.toNat]
    have : 256 ^ k * (beVal bs.reverse * 256) = 256 ^ k * 256 * beVal bs.reverse := by
      rw [Nat.mul_comm (beVal _), Nat.mul_assoc]
    omega

theorem bigEndian_iff {n x : Nat} {bs : Bytes} : BigEndian n x bs ↔ bs.length = n ∧ x = beVal bs := by
  unfold BigEndian
  rw [sum_zipIdx_aux bs.reverse 0]; simp

theorem bigEndian_put16 {x : UInt16} {bs : Bytes} : BigEndian 2 x.toNat bs ↔ bs = putU16 x := by
  rw [bigEndian_iff]
  constructor
  · rintro ⟨h1, h2⟩; exact beVal_inj (by simp [h1]) (by simp [h2])
  · rintro rfl; simp

theorem bigEndian_put64 {x : UInt64} {bs : Bytes} : BigEndian 8 x.toNat bs ↔ bs = putU64 x := by
  rw [bigEndian_iff]
  constructor
  · rintro ⟨h1, h2⟩; exact beVal_inj (by simp [h1]) (by simp [h2])
  · rintro rfl; simp

theorem bigEndian_lt {n x : Nat} {bs : Bytes} (h : BigEndian n x bs) : x < 256 ^ n := by
  rw [bigEndian_iff] at h
  obtain ⟨h1, h2⟩ := h
  rw [h2, ← h1]; exact beVal_lt bs

theorem bigEndian_nat16 {x : Nat} {bs : Bytes} :
    BigEndian 2 x bs ↔ x < 65536 ∧ bs = putU16 (UInt16.ofNat x) := by
  constructor
  · intro h
    have hx := bigEndian_lt h
    refine ⟨by omega, bigEndian_put16.mp ?_⟩
    rw [toNat16 (by omega)]; exact h
  · rintro ⟨h, rfl⟩
    have := (bigEndian_put16 (x := UInt16.ofNat x)).mpr rfl
    rwa [toNat16 (by omega)] at this

theorem bigEndian_nat64 {x : Nat} {bs : Bytes} :
    BigEndian 8 x bs ↔ x < 2 ^ 64 ∧ bs = putU64 (UInt64.ofNat x) := by
  constructor
  · intro h
    have hx := bigEndian_lt h
    refine ⟨by omega, bigEndian_put64.mp ?_⟩
    rw [toNat64 (by omega)]; exact h
  · rintro ⟨h, rfl⟩
    have := (bigEndian_put64 (x := UInt64.ofNat x)).mpr rfl
    rwa [toNat64 (by omega)] at this

theorem stringBytes_eq (s : String) : stringBytes s = utf8 s := rfl

theorem ofU8?_eq_some {b : UInt8} {t : EventType} :
    EventType.ofU8? b = some t ↔ b = typeNumber t := by
  unfold EventType.ofU8? typeNumber
  constructor
  · intro h
    split at h
    · cases h; assumption
    · split at h
      · cases h; assumption
      · split at h
        · cases h; assumption
        · split at h
          · cases h; assumption
          · cases h
  · rintro rfl; cases t <;> decide

theorem toU8_eq (t : EventType) : t.toU8 = typeNumber t := by cases t <;> rfl

/-! ### The header parser, step by step -/

theorem readVersion_eq_ok {r v s : Bytes} :
    readVersion r = .ok (v, s) ↔ r = v ++ s ∧ v.length = 3 ∧ v.head? = some 0 := by
  unfold readVersion
  rw [Outcome.bind_eq_ok]
  constructor
  · rintro ⟨⟨a, b⟩, h1, h2⟩
    obtain ⟨rfl, hl⟩ := readExact_eq_ok.mp h1
    simp only at h2
    split at h2
    · cases h2
    · rename_i hv
      simp only [Outcome.pure_eq, Outcome.ok.injEq, Prod.mk.injEq] at h2
      obtain ⟨rfl, rfl⟩ := h2
      refine ⟨rfl, hl, ?_⟩
      simpa [FORMAT_VERSION, List.head?_eq_getElem?] using hv
  · rintro ⟨rfl, hl, hv⟩
    refine ⟨(v, s), readExact_append hl, ?_⟩
    rw [List.head?_eq_getElem?] at hv
    simp [FORMAT_VERSION, hv]

theorem readRefId_eq_ok {r s : Bytes} {x : Option UInt64} :
    readRefId r = .ok (x, s) ↔ ∃ b, RefLayout x b ∧ r = b ++ s := by
  unfold readRefId
  rw [Outcome.bind_eq_ok]
  constructor
  · rintro ⟨⟨m, r'⟩, h1, h2⟩
    have h1 := readU8_eq_ok.mp h1
    subst h1
    simp only at h2
    split at h2
    · rename_i hm; subst hm
      simp only [Outcome.pure_eq, Outcome.ok.injEq, Prod.mk.injEq] at h2
      obtain ⟨rfl, rfl⟩ := h2
      exact ⟨[0], rfl, rfl⟩
    · split at h2
      · rename_i hm; subst hm
        rw [Outcome.bind_eq_ok] at h2
        obtain ⟨⟨i, r''⟩, h3, h4⟩ := h2
        simp only [Outcome.pure_eq, Outcome.ok.injEq, Prod.mk.injEq] at h4
        obtain ⟨rfl, rfl⟩ := h4
        have h3 := readU64_eq_ok.mp h3
        subst h3
        exact ⟨0xFF :: putU64 i, ⟨_, bigEndian_put64.mpr rfl, rfl⟩, rfl⟩
      · cases h2
  · rintro ⟨b, hb, rfl⟩
    cases x with
    | none =>
      simp only [RefLayout] at hb; subst hb
      exact ⟨(0, s), readU8_eq_ok.mpr rfl, by simp⟩
    | some i =>
      obtain ⟨rb, h1, rfl⟩ := hb
      rw [bigEndian_put64] at h1; subst h1
      refine ⟨(0xFF, putU64 i ++ s), readU8_eq_ok.mpr rfl, ?_⟩
      simp only [readU64_put, Outcome.bind_ok, Outcome.pure_eq]
      rfl

theorem readString_eq_ok {n : Nat} {r s : Bytes} {x : String} :
    readString n r = .ok (x, s) ↔ r = utf8 x ++ s ∧ (utf8 x).length = n := by
  unfold readString
  rw [Outcome.bind_eq_ok]
  constructor
  · rintro ⟨⟨a, b⟩, h1, h2⟩
    obtain ⟨rfl, hl⟩ := readExact_eq_ok.mp h1
    simp only at h2
    split at h2
    · rename_i t ht
      simp only [Outcome.pure_eq, Outcome.ok.injEq, Prod.mk.injEq] at h2
      obtain ⟨rfl, rfl⟩ := h2
      rw [utf8_of_fromUtf8 ht]; exact ⟨rfl, hl⟩
    · cases h2
  · rintro ⟨rfl, hl⟩
    exact ⟨(utf8 x, s), readExact_append hl, by simp⟩

theorem readName_eq_ok {r s : Bytes} {x : String} :
    readName r = .ok (x, s) ↔ ∃ b, StringLayout x b ∧ r = b ++ s := by
  unfold readName
  rw [Outcome.bind_eq_ok]
  constructor
  · rintro ⟨⟨l, r'⟩, h1, h2⟩
    have h1 := readU16_eq_ok.mp h1
    obtain ⟨rfl, hl⟩ := readString_eq_ok.mp h2
    subst h1
    refine ⟨putU16 l ++ utf8 x, ⟨putU16 l, ?_, rfl⟩, by simp⟩
    rw [stringBytes_eq, hl]; exact bigEndian_put16.mpr rfl
  · rintro ⟨b, ⟨lb, h1, rfl⟩, rfl⟩
    obtain ⟨hlt, rfl⟩ := bigEndian_nat16.mp h1
    refine ⟨(UInt16.ofNat (stringBytes x).length, utf8 x ++ s), readU16_eq_ok.mpr ?_, ?_⟩
    · simp [stringBytes_eq]
    · refine readString_eq_ok.mpr ⟨rfl, ?_⟩
      rw [toNat16 (by omega)]; rfl

theorem readNamespace_eq_ok {r s : Bytes} {x : Option String} :
    (∃ l r', readU16 r = .ok (l, r') ∧ readNamespace l r' = .ok (x, s))
      ↔ ∃ b, NamespaceLayout x b ∧ r = b ++ s := by
  constructor
  · rintro ⟨l, r', h1, h2⟩
    have h1 := readU16_eq_ok.mp h1
    subst h1
    unfold readNamespace at h2
    split at h2
    · rename_i hl
      rw [Outcome.bind_eq_ok] at h2
      obtain ⟨⟨t, r''⟩, h3, h4⟩ := h2
      simp only [Outcome.pure_eq, Outcome.ok.injEq, Prod.mk.injEq] at h4
      obtain ⟨rfl, rfl⟩ := h4
      obtain ⟨rfl, hlen⟩ := readString_eq_ok.mp h3
      refine ⟨putU16 l ++ utf8 t, ⟨?_, putU16 l, ?_, rfl⟩, by simp⟩
      · rintro rfl; simp [utf8] at hlen; omega
      · rw [stringBytes_eq, hlen]; exact bigEndian_put16.mpr rfl
    · rename_i hl
      simp only [Outcome.pure_eq, Outcome.ok.injEq, Prod.mk.injEq] at h2
      obtain ⟨rfl, rfl⟩ := h2
      refine ⟨putU16 l, ?_, rfl⟩
      have : l = 0 := by apply UInt16.toNat_inj.mp; simp; omega
      subst this; rfl
  · rintro ⟨b, hb, rfl⟩
    cases x with
    | none =>
      simp only [NamespaceLayout] at hb; subst hb
      exact ⟨0, s, readU16_eq_ok.mpr rfl, by simp [readNamespace]⟩
    | some t =>
      obtain ⟨hne, lb, h1, rfl⟩ := hb
      obtain ⟨hlt, rfl⟩ := bigEndian_nat16.mp h1
      refine ⟨UInt16.ofNat (stringBytes t).length, utf8 t ++ s, readU16_eq_ok.mpr ?_, ?_⟩
      · simp [stringBytes_eq]
      · unfold readNamespace
        have hpos : 0 < (utf8 t).length := by
          apply List.length_pos_iff.mpr
          intro h; exact hne (utf8_eq_nil.mp h)
        rw [stringBytes_eq] at hlt ⊢
        rw [toNat16 (by omega), if_pos hpos]
        rw [Outcome.bind_eq_ok]
        exact ⟨(t, s), readString_eq_ok.mpr ⟨rfl, rfl⟩, by simp⟩

/-- The header parser accepts exactly the header layout. -/
theorem fromRead_eq_ok {r s : Bytes} {h : EventHeader} :
    EventHeader.fromRead r = .ok (h, s) ↔ ∃ ver, HeaderLayout h ver s r := by
  unfold EventHeader.fromRead HeaderLayout
  constructor
  · intro hr
    simp only [Outcome.bind_eq_ok, Prod.exists] at hr
    obtain ⟨v, r1, h1, i, r2, h2, tn, r3, h3, hr⟩ := hr
    split at hr
    · cases hr
    · rename_i ty hty
      simp only [Outcome.bind_eq_ok, Prod.exists, Outcome.pure_eq, Outcome.ok.injEq,
        Prod.mk.injEq] at hr
      obtain ⟨rf, r4, h4, nl, r5, h5, ns, r6, h6, nm, r7, h7, rfl, rfl⟩ := hr
      obtain ⟨rfl, hv1, hv2⟩ := readVersion_eq_ok.mp h1
      have h2 := readU64_eq_ok.mp h2
      have h3 := readU8_eq_ok.mp h3
      have hty := ofU8?_eq_some.mp hty
      obtain ⟨b4, l4, h4⟩ := readRefId_eq_ok.mp h4
      obtain ⟨b5, l5, h5⟩ := readNamespace_eq_ok.mp ⟨nl, r5, h5, h6⟩
      obtain ⟨b7, l7, h7⟩ := readName_eq_ok.mp h7
      subst h2 h3 hty h4 h5 h7
      exact ⟨v, putU64 i, b4, b5, b7, hv1, hv2, bigEndian_put64.mpr rfl, l4, l5, l7, by
        simp [putU8, List.append_assoc]⟩
  · rintro ⟨v, idb, b4, b5, b7, hv1, hv2, hid, l4, l5, l7, rfl⟩
    rw [bigEndian_put64] at hid; subst hid
    have e1 : v ++ putU64 h.id ++ [typeNumber h.eventType] ++ b4 ++ b5 ++ b7 ++ s
        = v ++ (putU64 h.id ++ (putU8 (typeNumber h.eventType) ++ (b4 ++ (b5 ++ (b7 ++ s))))) := by
      simp [putU8, List.append_assoc]
    rw [e1, readVersion_eq_ok.mpr ⟨rfl, hv1, hv2⟩]
    simp only [Outcome.bind_ok, readU64_put, readU8_put]
    rw [ofU8?_eq_some.mpr rfl]
    simp only
    rw [readRefId_eq_ok.mpr ⟨b4, l4, rfl⟩]
    obtain ⟨nl, r5, h5, h6⟩ := readNamespace_eq_ok.mpr ⟨b5, l5, rfl⟩
    simp only [Outcome.bind_ok]
    rw [h5]; simp only [Outcome.bind_ok]
    rw [h6]; simp only [Outcome.bind_ok]
    rw [readName_eq_ok.mpr ⟨b7, l7, rfl⟩]
    rfl

/-! ### The encoder conforms to the layout -/

theorem headerLayout_length {h : EventHeader} {ver extra bs : Bytes} (hl : HeaderLayout h ver extra bs) :
    bs.length = headerSize h + extra.length := by
  obtain ⟨idb, refb, nsb, nameb, hv, _, hid, href, hns, hname, rfl⟩ := hl
  have h1 := hid.1
  have h2 : refb.length = if h.refId.isSome then 9 else 1 := by
    cases hr : h.refId with
    | none => rw [hr] at href; simp only [RefLayout] at href; subst href; rfl
    | some r =>
      rw [hr] at href; obtain ⟨rb, h3, rfl⟩ := href
      simp [h3.1]
  have h3 : nsb.length = 2 + nsSize h.ns := by
    cases hr : h.ns with
    | none => rw [hr] at hns; simp only [NamespaceLayout] at hns; subst hns; rfl
    | some r =>
      rw [hr] at hns; obtain ⟨_, lb, h3, rfl⟩ := hns
      simp [h3.1, nsSize]
  have h4 : nameb.length = 2 + (stringBytes h.name).length := by
    obtain ⟨lb, h3, rfl⟩ := hname
    simp [h3.1]
  simp only [List.length_append, List.length_cons, List.length_nil, h1, h2, h3, h4, hv, headerSize]

/-- Length of an encoded header, without any hypothesis. -/
theorem intoBytes_header_length (h : EventHeader) : h.intoBytes.length = headerSize h := by
  unfold EventHeader.intoBytes headerSize
  cases h.refId <;> cases h.ns <;> simp [FORMAT_VERSION, stringBytes_eq, nsSize] <;> omega

theorem intoBytes_headerLayout {h : EventHeader} (hs : headerSize h ≤ 65535) (hn : h.ns ≠ some "") :
    HeaderLayout h [0, 9, 0] [] h.intoBytes := by
  refine ⟨putU64 h.id,
    (match h.refId with | some r => putU8 0xFF ++ putU64 r | none => putU8 0x00),
    (match h.ns with
      | some ns => putU16 (UInt16.ofNat (utf8 ns).length) ++ utf8 ns
      | none => putU16 0),
    putU16 (UInt16.ofNat (utf8 h.name).length) ++ utf8 h.name, rfl, rfl, bigEndian_put64.mpr rfl, ?_, ?_, ?_, ?_⟩
  · cases h.refId with
    | none => rfl
    | some r => exact ⟨_, bigEndian_put64.mpr rfl, rfl⟩
  · unfold headerSize at hs
    cases hns : h.ns with
    | none => rfl
    | some s =>
      rw [hns] at hs hn
      simp only [nsSize] at hs
      refine ⟨fun he => hn (by rw [he]), _, bigEndian_nat16.mpr ⟨?_, rfl⟩, rfl⟩
      simp only [stringBytes_eq] at *; omega
  · unfold headerSize at hs
    refine ⟨_, bigEndian_nat16.mpr ⟨?_, rfl⟩, rfl⟩
    simp only [stringBytes_eq] at *; omega
  · unfold EventHeader.intoBytes
    rw [toU8_eq]
    cases h.refId <;> cases h.ns <;> simp [FORMAT_VERSION, putU8, List.append_assoc]

theorem intoBytes_frameLayout {e : Event} (hf : Fits e) (ha : Allocatable e) :
    ∃ bs, e.intoBytes = .ok bs ∧ FrameLayout e [0, 9, 0] [] bs := by
  obtain ⟨hs, hn⟩ := hf
  unfold Allocatable at ha
  have hl := intoBytes_header_length e.header
  refine ⟨_, rfl, putU64 _, putU16 _, e.header.intoBytes, intoBytes_headerLayout hs hn, ?_, ?_, rfl⟩
  · refine bigEndian_nat64.mpr ⟨by omega, ?_⟩
    congr 1
    apply UInt64.toNat_inj.mp
    simp only [UInt64.toNat_add, UInt64.toNat_ofNat', UInt16.toNat_ofNat']
    omega
  · exact bigEndian_nat16.mpr ⟨by omega, rfl⟩

/-! ### The decoder accepts exactly the frame layout -/

theorem fromBytes_eq_ok {checks : Bool} {r rest : Bytes} {e : Event} :
    Event.fromBytes checks r = .ok (e, rest) ↔
      Allocatable e ∧ ∃ ver extra frame, FrameLayout e ver extra frame ∧ r = frame ++ rest := by
  unfold Event.fromBytes Event.fromAsyncRead
  simp only [byteSource]
  constructor
  · intro h
    simp only [Outcome.bind_eq_ok, Prod.exists] at h
    obtain ⟨tl, r1, h1, hl, r2, h2, dl, h3, hb, r3, h4, hdr, ex, h5, ⟨⟩, h6, buf, r4, h7, h8⟩ := h
    simp only [Outcome.pure_eq, Outcome.ok.injEq, Prod.mk.injEq] at h8
    obtain ⟨rfl, rfl⟩ := h8
    obtain ⟨rfl, htl⟩ := readExact_eq_ok.mp h1
    obtain ⟨rfl, hhl⟩ := readExact_eq_ok.mp h2
    obtain ⟨rfl, hhb⟩ := readExact_eq_ok.mp h4
    obtain ⟨rfl, hbuf⟩ := readExact_eq_ok.mp h7
    obtain ⟨ver, hlay⟩ := fromRead_eq_ok.mp h5
    have hal : dl.toNat ≤ isizeMax := by
      unfold allocVec at h6; split at h6
      · assumption
      · cases h6
    have hv1 := beVal_lt tl
    have hv2 := beVal_lt hl
    rw [htl] at hv1
    rw [hhl] at hv2
    have e1 : (UInt16.ofNat (beVal hl)).toNat = beVal hl := toNat16 (by omega)
    have e2 : (UInt64.ofNat (beVal tl)).toNat = beVal tl := toNat64 (by omega)
    rw [e1] at h3 hhb
    have e3 : (UInt64.ofNat (beVal hl)).toNat = beVal hl := toNat64 (by omega)
    have hle : beVal hl ≤ beVal tl ∧ dl.toNat = beVal tl - beVal hl := by
      unfold subU64 at h3
      split at h3
      · cases h3
      · injection h3 with h3
        subst h3
        unfold isizeMax at hal
        rw [UInt64.toNat_sub, e2, e3] at hal ⊢
        omega
    refine ⟨?_, ver, ex, tl ++ hl ++ hb ++ buf, ⟨tl, hl, hb, hlay, ?_, ?_, rfl⟩, by simp [List.append_assoc]⟩
    · unfold Allocatable; simp only; unfold isizeMax at hal; omega
    · rw [bigEndian_iff]; exact ⟨htl, by simp only; omega⟩
    · rw [bigEndian_iff]; exact ⟨hhl, hhb⟩
  · rintro ⟨ha, ver, extra, frame, ⟨tlb, hlb, hdr, hlay, htl, hhl, rfl⟩, rfl⟩
    unfold Allocatable at ha
    obtain ⟨hl1, hl2⟩ := bigEndian_iff.mp hhl
    obtain ⟨ht1, ht2⟩ := bigEndian_iff.mp htl
    have hv1 := beVal_lt tlb
    have hv2 := beVal_lt hlb
    rw [ht1] at hv1
    rw [hl1] at hv2
    have e1 : (UInt16.ofNat (beVal hlb)).toNat = beVal hlb := toNat16 (by omega)
    have e2 : (UInt64.ofNat (beVal tlb)).toNat = beVal tlb := toNat64 (by omega)
    have e3 : (UInt64.ofNat (beVal hlb)).toNat = beVal hlb := toNat64 (by omega)
    have ea : tlb ++ hlb ++ hdr ++ e.data ++ rest = tlb ++ (hlb ++ (hdr ++ (e.data ++ rest))) := by
      simp [List.append_assoc]
    rw [ea, readExact_append ht1]
    simp only [Outcome.bind_ok]
    rw [readExact_append hl1]
    simp only [Outcome.bind_ok, e1]
    have hsub : subU64 checks (UInt64.ofNat (beVal tlb)) (UInt64.ofNat (beVal hlb))
        = .ok (UInt64.ofNat (beVal tlb) - UInt64.ofNat (beVal hlb)) := by
      unfold subU64
      rw [if_neg]
      simp only [Bool.and_eq_true, decide_eq_true_eq, not_and, UInt64.lt_iff_toNat_lt, e2, e3]
      intro _; omega
    rw [hsub]
    simp only [Outcome.bind_ok]
    rw [readExact_append hl2]
    simp only [Outcome.bind_ok]
    rw [fromRead_eq_ok.mpr ⟨ver, hlay⟩]
    have hdl : (UInt64.ofNat (beVal tlb) - UInt64.ofNat (beVal hlb)).toNat = e.data.length := by
      rw [UInt64.toNat_sub, e2, e3]; omega
    simp only [Outcome.bind_ok, hdl]
    have hal : allocVec e.data.length = .ok () := by
      unfold allocVec isizeMax; rw [if_pos (by omega)]
    rw [hal]
    simp only [Outcome.bind_ok]
    rw [readExact_append rfl]
    rfl

end Bromine
