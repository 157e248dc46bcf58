import Verif.Lemmas.Stream
/-
C01-C08: the wire format of events. Statements use `Verif/Spec/Frame.lean` and the functions of the API
(`Event.intoBytes`, `Event.fromBytes` = `from_async_read` on an in-memory reader,
`Event.fromAsyncRead scriptSource` = `from_async_read` on a transport).
`checks` is the build profile: `true` = overflow checks compiled in (debug), `false` = release.
-/
namespace Bromine.Props
open Bromine Bromine.Spec

/-! ### Examples used to show that hypotheses can be met -/

/-- A namespaced response with a payload. -/
def sampleEvent : Event :=
  { header := { id := 0x1234000000000007, eventType := .response, refId := some 5,
                ns := some "dev.trivernis", name := "großer Ping" },
    data := [1, 2, 3, 255] }

/-- An initiator without namespace, name or payload. -/
def emptyEvent : Event :=
  { header := { id := 0, eventType := .initiator, refId := none, ns := none, name := "" }, data := [] }

theorem sample_fits : Fits sampleEvent := by decide
theorem sample_alloc : Allocatable sampleEvent := by decide
theorem empty_fits : Fits emptyEvent := by decide
theorem empty_alloc : Allocatable emptyEvent := by decide

/-! ### C01 round trip -/

/-- C01: an event that the format can represent is read back exactly, and exactly its frame is
consumed, whatever follows. -/
theorem C01_roundtrip (e : Event) (hf : Fits e) (ha : Allocatable e) :
    ∃ bs, e.intoBytes = .ok bs ∧
      ∀ (checks : Bool) (rest : Bytes), Event.fromBytes checks (bs ++ rest) = .ok (e, rest) := by
  obtain ⟨bs, h1, h2⟩ := intoBytes_frameLayout hf ha
  exact ⟨bs, h1, fun checks rest => fromBytes_eq_ok.mpr ⟨ha, _, _, bs, h2, rfl⟩⟩

/-- A decoded event always is representable. -/
theorem fits_of_decoded {checks : Bool} {r rest : Bytes} {e : Event}
    (h : Event.fromBytes checks r = .ok (e, rest)) : Fits e ∧ Allocatable e := by
  obtain ⟨ha, ver, extra, frame, ⟨tlb, hlb, hdr, hh, h1, h2, h3⟩, _⟩ := fromBytes_eq_ok.mp h
  refine ⟨⟨?_, ?_⟩, ha⟩
  · have := headerLayout_length hh
    have := bigEndian_lt h2
    omega
  · obtain ⟨idb, refb, nsb, nameb, -, -, -, -, hns, -, -⟩ := hh
    intro hn
    rw [hn] at hns
    exact hns.1 rfl

/-- C01, exactness: the representable events are precisely those that survive the round trip. -/
theorem C01_roundtrip_iff (e : Event) (ha : Allocatable e) (checks : Bool) :
    Fits e ↔ ∃ bs, e.intoBytes = .ok bs ∧ Event.fromBytes checks bs = .ok (e, []) := by
  constructor
  · intro hf
    obtain ⟨bs, h1, h2⟩ := C01_roundtrip e hf ha
    exact ⟨bs, h1, by simpa using h2 checks []⟩
  · rintro ⟨bs, _, h⟩
    exact (fits_of_decoded h).1

/-- C01: encoding is injective on representable events. -/
theorem C01_injective (e e' : Event) (hf : Fits e) (ha : Allocatable e) (hf' : Fits e')
    (ha' : Allocatable e') (h : e.intoBytes = e'.intoBytes) : e = e' := by
  obtain ⟨bs, h1, h2⟩ := C01_roundtrip e hf ha
  obtain ⟨bs', h1', h2'⟩ := C01_roundtrip e' hf' ha'
  rw [h1, h1'] at h
  injection h with h
  subst h
  have := (h2 true []).symm.trans (h2' true [])
  simpa using this

example : ∃ bs, sampleEvent.intoBytes = .ok bs ∧
    ∀ checks rest, Event.fromBytes checks (bs ++ rest) = .ok (sampleEvent, rest) :=
  C01_roundtrip _ sample_fits sample_alloc

/-! ### C04 the decoder accepts exactly the documented layout -/

/-- C04 (reader holding `r` and then EOF): an event is returned iff the input starts with a frame that
carries exactly this event. -/
theorem C04_decoder_iff (checks : Bool) (r rest : Bytes) (e : Event) :
    Event.fromBytes checks r = .ok (e, rest) ↔
      Allocatable e ∧ ∃ ver extra frame, FrameLayout e ver extra frame ∧ r = frame ++ rest :=
  fromBytes_eq_ok

/-- C04: at most one event can be read from given bytes: the layout is unambiguous. -/
theorem C04_unambiguous (e e' : Event) (ver extra ver' extra' frame frame' rest rest' : Bytes)
    (ha : Allocatable e) (ha' : Allocatable e')
    (h : FrameLayout e ver extra frame) (h' : FrameLayout e' ver' extra' frame')
    (heq : frame ++ rest = frame' ++ rest') : e = e' ∧ rest = rest' := by
  have h1 := (C04_decoder_iff true (frame ++ rest) rest e).mpr ⟨ha, _, _, _, h, rfl⟩
  have h2 := (C04_decoder_iff true (frame ++ rest) rest' e').mpr ⟨ha', _, _, _, h', heq⟩
  rw [h1] at h2
  simpa using h2

/-- C04 on a transport that delivers its bytes in arbitrary chunks with arbitrary waits. -/
theorem C04_decoder_iff_transport (checks : Bool) (s : Script) (e : Event) (rest : Bytes) :
    (∃ s', Event.fromAsyncRead scriptSource checks s = .ok (e, s') ∧ s'.bytes = rest ∧ s'.closed = s.closed) ↔
      Allocatable e ∧ ∃ ver extra frame, FrameLayout e ver extra frame ∧ s.bytes = frame ++ rest := by
  rw [← C04_decoder_iff checks]
  have key := script_read checks s
  constructor
  · rintro ⟨s', h, h2, h3⟩
    rw [h] at key
    simp only [Outcome.map_ok, h2, h3] at key
    cases hr : Event.fromAsyncRead (openSource s.closed) checks s.bytes with
    | ok p =>
      rw [hr] at key
      simp only [Outcome.map_ok, Outcome.ok.injEq, Prod.mk.injEq, and_true] at key
      exact ok_of_openRead (by rw [hr]; simp [key.1, key.2])
    | err _ => rw [hr] at key; cases key
    | panic => rw [hr] at key; cases key
    | hang => rw [hr] at key; cases key
  · intro h
    rw [openRead_of_ok h] at key
    cases hr : Event.fromAsyncRead scriptSource checks s with
    | ok p =>
      rw [hr] at key
      simp only [Outcome.map_ok, Outcome.ok.injEq, Prod.mk.injEq] at key
      exact ⟨p.2, by simp [← key.1], key.2.1, key.2.2⟩
    | err _ => rw [hr] at key; cases key
    | panic => rw [hr] at key; cases key
    | hang => rw [hr] at key; cases key

/-- The layout of the sample event is met by its encoding. -/
example : ∃ bs, sampleEvent.intoBytes = .ok bs ∧ FrameLayout sampleEvent [0, 9, 0] [] bs :=
  intoBytes_frameLayout sample_fits sample_alloc

/-- A concrete frame, byte by byte. -/
example : Event.fromBytes true
    [0,0,0,0,0,0,0,19, 0,18, 0,9,7, 0,0,0,0,0,0,0,1, 0, 0, 0,0, 0,1, 0x61, 42, 99]
    = .ok ({ header := { id := 1, eventType := .initiator, refId := none, ns := none, name := "a" },
             data := [42] }, [99]) := by
  decide +kernel

/-! ### C02 back-to-back frames, every chunking -/

/-- C02: `es` are written back to back, possibly followed by an unfinished frame `p`. Whatever the
chunking and the waits, the receiving loop yields exactly `es` and then stops with EOF (connection closed)
or keeps waiting (connection open). -/
theorem C02_back_to_back (checks : Bool) (es : List Event) (frames : List Bytes)
    (hes : ∀ e ∈ es, Fits e ∧ Allocatable e)
    (hfr : es.map Event.intoBytes = frames.map Outcome.ok)
    (next : Event) (hnext : Fits next ∧ Allocatable next) (p q : Bytes)
    (hp : next.intoBytes = .ok (p ++ q)) (hq : q ≠ [])
    (s : Script) (hs : s.bytes = frames.flatten ++ p) (fuel : Nat) (hfuel : es.length < fuel) :
    readLoop scriptSource checks fuel s
      = (es, if s.closed then .err (.io .unexpectedEof) else .hang) := by
  rw [readLoop_script, hs]
  clear hs
  generalize s.closed = closed
  clear s
  induction es generalizing frames fuel with
  | nil =>
    obtain ⟨bs, h1, h2⟩ := intoBytes_frameLayout hnext.1 hnext.2
    rw [hp] at h1
    injection h1 with h1
    have hn : frames = [] := by simpa using hfr
    subst hn
    obtain ⟨n, rfl⟩ := Nat.exists_eq_succ_of_ne_zero (by omega : fuel ≠ 0)
    have ht := truncated_read (checks := checks) (closed := closed) hnext.2 h2 h1.symm hq
    simp only [List.flatten_nil, List.nil_append]
    unfold readLoop
    rw [ht]
    cases closed <;> rfl
  | cons e es ih =>
    cases frames with
    | nil => simp at hfr
    | cons f frames =>
      simp only [List.map_cons, List.cons.injEq] at hfr
      obtain ⟨n, rfl⟩ := Nat.exists_eq_succ_of_ne_zero (by omega : fuel ≠ 0)
      have hE := hes e (by simp)
      obtain ⟨bs, h1, h2⟩ := C01_roundtrip e hE.1 hE.2
      rw [hfr.1] at h1
      injection h1 with h1
      subst h1
      have hr := openRead_of_ok (closed := closed) (h2 checks (frames.flatten ++ p))
      have ih' := ih frames (fun e he => hes e (by simp [he])) hfr.2 n (by simp at hfuel; omega)
      rw [List.flatten_cons, List.append_assoc, readLoop_step n hr, ih']

/-- The frames of any representable events exist, so C02 applies to any list of them. -/
theorem C02_applies (es : List Event) (hes : ∀ e ∈ es, Fits e ∧ Allocatable e) :
    ∃ frames : List Bytes, es.map Event.intoBytes = frames.map Outcome.ok := by
  induction es with
  | nil => exact ⟨[], rfl⟩
  | cons e es ih =>
    obtain ⟨fs, h⟩ := ih fun e he => hes e (by simp [he])
    obtain ⟨bs, h1, _⟩ := intoBytes_frameLayout (hes e (by simp)).1 (hes e (by simp)).2
    exact ⟨bs :: fs, by simp [h, h1]⟩

example : ∃ frames : List Bytes, [sampleEvent, emptyEvent, sampleEvent].map Event.intoBytes = frames.map Outcome.ok :=
  C02_applies _ (by
    intro e he
    simp only [List.mem_cons, List.not_mem_nil, or_false] at he
    rcases he with rfl | rfl | rfl
    · exact ⟨sample_fits, sample_alloc⟩
    · exact ⟨empty_fits, empty_alloc⟩
    · exact ⟨sample_fits, sample_alloc⟩)

/-! ### C03 truncated frames -/

/-- C03: a transport that delivers any strict prefix `p` of a frame and is then closed gives an i/o error
(and an open one keeps waiting). -/
theorem C03_truncated (checks : Bool) (e : Event) (hf : Fits e) (ha : Allocatable e) (p q : Bytes)
    (hp : e.intoBytes = .ok (p ++ q)) (hq : q ≠ []) (s : Script) (hs : s.bytes = p) :
    Event.fromAsyncRead scriptSource checks s
      = if s.closed then .err (.io .unexpectedEof) else .hang := by
  obtain ⟨bs, h1, h2⟩ := intoBytes_frameLayout hf ha
  rw [hp] at h1
  injection h1 with h1
  have ht := truncated_read (checks := checks) (closed := s.closed) ha h2 h1.symm hq
  have key := script_read checks s
  rw [hs, ht] at key
  cases hr : Event.fromAsyncRead scriptSource checks s <;> rw [hr] at key <;> cases hc : s.closed <;>
    simp_all

/-- C03 for frames of any minor version with unknown header bytes. -/
theorem C03_truncated_layout (checks : Bool) (e : Event) (ha : Allocatable e) (ver extra p q : Bytes)
    (hl : FrameLayout e ver extra (p ++ q)) (hq : q ≠ []) :
    Event.fromBytes checks p = .err (.io .unexpectedEof) := by
  have := truncated_read (checks := checks) (closed := true) ha hl rfl hq
  rw [openSource_closed] at this
  simpa [Event.fromBytes] using this

example : ∃ p q, sampleEvent.intoBytes = .ok (p ++ q) ∧ q ≠ [] ∧ p.length = 30 := by
  obtain ⟨bs, h, _⟩ := C01_roundtrip _ sample_fits sample_alloc
  have hl : 30 < bs.length := by
    have : sampleEvent.intoBytes.map (fun b => decide (30 < b.length)) = .ok true := by decide +kernel
    rw [h] at this
    simpa using this
  exact ⟨bs.take 30, bs.drop 30, by simpa using h, by simp; omega, by simp; omega⟩

/-! ### C05 forward compatibility -/

/-- C05: a frame with appended header bytes gives the same event, payload and rest as the one without. -/
theorem C05_extra_ignored (checks : Bool) (e : Event) (ha : Allocatable e) (ver extra frame frame' rest : Bytes)
    (h : FrameLayout e ver [] frame) (h' : FrameLayout e ver extra frame') :
    Event.fromBytes checks (frame ++ rest) = .ok (e, rest) ∧
    Event.fromBytes checks (frame' ++ rest) = .ok (e, rest) :=
  ⟨(C04_decoder_iff ..).mpr ⟨ha, _, _, _, h, rfl⟩, (C04_decoder_iff ..).mpr ⟨ha, _, _, _, h', rfl⟩⟩

/-- C05: the frame obtained by inserting `extra` behind the header of the encoding of `e` and adapting both
length fields is read as `e`, with the following frame undisturbed. -/
theorem C05_insert_header_bytes (checks : Bool) (e : Event) (hf : Fits e) (ha : Allocatable e)
    (extra : Bytes)
    (lens hdr : Bytes) (henc : e.intoBytes = .ok (lens ++ hdr ++ e.data)) (hlens : lens.length = 10)
    (tlb hlb : Bytes) (ht : BigEndian 8 (hdr.length + extra.length + e.data.length) tlb)
    (hh : BigEndian 2 (hdr.length + extra.length) hlb) (rest : Bytes) :
    Event.fromBytes checks (tlb ++ hlb ++ (hdr ++ extra) ++ e.data ++ rest) = .ok (e, rest) := by
  obtain ⟨bs, h1, tlb', hlb', hdr', hl, h3, h4, h5⟩ := intoBytes_frameLayout hf ha
  rw [henc] at h1
  injection h1 with h1
  rw [h5] at h1
  have h6 := List.append_cancel_right h1
  have h7 : lens = tlb' ++ hlb' ∧ hdr = hdr' :=
    List.append_inj h6 (by simp [hlens, h3.1, h4.1])
  obtain ⟨-, rfl⟩ := h7
  refine (C04_decoder_iff ..).mpr ⟨ha, [0, 9, 0], extra, _, ⟨tlb, hlb, hdr ++ extra, ?_, ?_, ?_, rfl⟩, rfl⟩
  · obtain ⟨idb, refb, nsb, nameb, a, b, c, d, f, g, rfl⟩ := hl
    exact ⟨idb, refb, nsb, nameb, a, b, c, d, f, g, by simp⟩
  · simpa using ht
  · simpa using hh

example : ∃ tlb hlb : Bytes, headerSize sampleEvent.header + [7, 7, 7].length ≤ 65535 ∧
    BigEndian 8 (headerSize sampleEvent.header + 3 + 4) tlb ∧
    BigEndian 2 (headerSize sampleEvent.header + 3) hlb :=
  ⟨_, _, by decide, bigEndian_nat64.mpr ⟨by decide, rfl⟩, bigEndian_nat16.mpr ⟨by decide, rfl⟩⟩

/-! ### C06 version gate -/

/-- C06, negative half: a frame whose header starts with version bytes `a b c`, `a ≠ 0`, is refused with
the text `a.b.c`. The first hypothesis on the lengths excludes the malformed frames of C08. -/
theorem C06_foreign_major (checks : Bool) (tlb hlb hdr rest : Bytes) (a b c : UInt8) (tl : Nat)
    (ht : BigEndian 8 tl tlb) (hh : BigEndian 2 (3 + hdr.length) hlb) (hle : 3 + hdr.length ≤ tl)
    (ha : a ≠ 0) :
    Event.fromBytes checks (tlb ++ hlb ++ (a :: b :: c :: hdr) ++ rest)
      = .err (.unsupportedVersion s!"{a.toNat}.{b.toNat}.{c.toNat}") := by
  have ht' := bigEndian_lt ht
  have hh' := bigEndian_lt hh
  rw [bigEndian_iff] at ht hh
  obtain ⟨ht1, rfl⟩ := ht
  obtain ⟨hh1, hh2⟩ := hh
  have e1 : (UInt64.ofNat (beVal tlb)).toNat = beVal tlb := toNat64 (by omega)
  have e2 : (UInt16.ofNat (beVal hlb)).toNat = 3 + hdr.length := by rw [← hh2]; exact toNat16 (by omega)
  have e3 : (UInt64.ofNat (3 + hdr.length)).toNat = 3 + hdr.length := toNat64 (by omega)
  unfold Event.fromBytes Event.fromAsyncRead
  simp only [byteSource, List.append_assoc]
  rw [readExact_append ht1]
  simp only [Outcome.bind_ok]
  rw [readExact_append hh1]
  simp only [Outcome.bind_ok, e2]
  have hsub : subU64 checks (UInt64.ofNat (beVal tlb)) (UInt64.ofNat (3 + hdr.length))
      = .ok (UInt64.ofNat (beVal tlb) - UInt64.ofNat (3 + hdr.length)) := by
    unfold subU64
    have : ¬ (UInt64.ofNat (beVal tlb) < UInt64.ofNat (3 + hdr.length)) := by
      rw [UInt64.lt_iff_toNat_lt, e1, e3]; omega
    simp only [this, decide_false, Bool.and_false, Bool.false_eq_true, if_false]
  rw [hsub]
  simp only [Outcome.bind_ok]
  rw [readExact_append (a := a :: b :: c :: hdr) (by simp; omega)]
  simp only [Outcome.bind_ok]
  unfold EventHeader.fromRead readVersion
  rw [show a :: b :: c :: hdr = [a, b, c] ++ hdr from rfl, readExact_append (by rfl)]
  simp only [Outcome.bind_ok]
  rw [if_pos (by simpa [FORMAT_VERSION] using ha)]
  simp only [Outcome.bind_err]
  rw [versionString_three]

/-- C06, positive half: changing only the minor version bytes does not change what is decoded. -/
theorem C06_minor_ignored (checks : Bool) (pre post : Bytes) (b c b' c' : UInt8) (hpre : pre.length = 10)
    (e : Event) (rest : Bytes)
    (h : Event.fromBytes checks (pre ++ [0, b, c] ++ post) = .ok (e, rest)) :
    Event.fromBytes checks (pre ++ [0, b', c'] ++ post) = .ok (e, rest) := by
  obtain ⟨ha, ver, extra, frame, ⟨tlb, hlb, hdr, ⟨idb, refb, nsb, nameb, h1, h2, h3, h4, h5, h6, rfl⟩, h8, h9, rfl⟩, h11⟩ :=
    (C04_decoder_iff ..).mp h
  obtain ⟨v0, v1, v2, rfl⟩ : ∃ x y z, ver = [x, y, z] := by
    match ver, h1 with
    | [x, y, z], _ => exact ⟨x, y, z, rfl⟩
  have h12 := h11
  simp only [List.append_assoc] at h12
  rw [← List.append_assoc tlb hlb] at h12
  obtain ⟨h13, h14⟩ := List.append_inj h12 (by simp [hpre, h8.1, h9.1])
  obtain ⟨h15, h16⟩ := List.append_inj h14 rfl
  refine (C04_decoder_iff ..).mpr ⟨ha, [0, b', c'], extra, _,
    ⟨tlb, hlb, _, ⟨idb, refb, nsb, nameb, rfl, rfl, h3, h4, h5, h6, rfl⟩, ?_, ?_, rfl⟩, ?_⟩
  · simpa using h8
  · simpa using h9
  · rw [h13, h16]; simp

example : ∃ tlb hlb : Bytes, BigEndian 8 25 tlb ∧ BigEndian 2 (3 + [1, 2].length) hlb :=
  ⟨_, _, bigEndian_nat64.mpr ⟨by decide, rfl⟩, bigEndian_nat16.mpr ⟨by decide, rfl⟩⟩

/-! ### C07 events that the format cannot represent -/

/-- The full property C07: encoding either reports an error or gives bytes that decode to the event. -/
def EncodeFaithful (e : Event) : Prop :=
  (∃ err, e.intoBytes = .err err) ∨
  ∃ bs, e.intoBytes = .ok bs ∧ ∀ checks rest, Event.fromBytes checks (bs ++ rest) = .ok (e, rest)

/-- C07 holds for the representable events … -/
theorem C07_faithful (e : Event) (hf : Fits e) (ha : Allocatable e) : EncodeFaithful e :=
  .inr (C01_roundtrip e hf ha)

/-- … and for no others: the encoder reports success and no continuation whatsoever makes the receiver see
this event. -/
theorem C07_violated_iff (e : Event) (ha : Allocatable e) : EncodeFaithful e ↔ Fits e := by
  constructor
  · rintro (⟨err, h⟩ | ⟨bs, _, h⟩)
    · cases h
    · exact (fits_of_decoded (h true [])).1
  · exact fun hf => C07_faithful e hf ha

/-- C07: for an event that does not fit, encoding succeeds and the event is never read back. -/
theorem C07_silent_loss (e : Event) (hf : ¬ Fits e) :
    ∃ bs, e.intoBytes = .ok bs ∧
      ∀ checks rest rest', Event.fromBytes checks (bs ++ rest) ≠ .ok (e, rest') :=
  ⟨_, rfl, fun _ _ _ h => hf (fits_of_decoded h).1⟩

/-- C07: an event with an empty namespace arrives without namespace. -/
theorem C07_empty_namespace (e : Event) (hn : e.header.ns = some "") (hs : headerSize e.header ≤ 65535)
    (ha : Allocatable e) :
    ∃ bs, e.intoBytes = .ok bs ∧ ∀ checks rest,
      Event.fromBytes checks (bs ++ rest) = .ok ({ e with header := { e.header with ns := none } }, rest) := by
  have hsz : headerSize { e.header with ns := none } = headerSize e.header := by
    simp [headerSize, hn, nsSize, stringBytes_eq, show utf8 "" = [] from rfl]
  obtain ⟨bs, h1, h2⟩ := C01_roundtrip { e with header := { e.header with ns := none } }
    ⟨by rw [hsz]; exact hs, by simp⟩ ha
  refine ⟨bs, ?_, h2⟩
  rw [← h1]
  have : e.header.intoBytes = EventHeader.intoBytes { e.header with ns := none } := by
    unfold EventHeader.intoBytes
    simp [hn, show utf8 "" = [] from rfl, show UInt16.ofNat 0 = 0 from rfl]
  unfold Event.intoBytes
  rw [this]

/-- C07: a name of 65536 bytes (or a multiple) arrives as the empty name, and the payload that arrives is
made of the first bytes of the name. -/
theorem C07_oversized_name_misread (id : UInt64) (ty : EventType) (name : String) (data : Bytes)
    (hlen : (stringBytes name).length % 65536 = 0) (hd : data.length ≤ (stringBytes name).length)
    (ha : data.length ≤ 2 ^ 63 - 1) :
    ∃ bs, (Event.new id none name data none ty).intoBytes = .ok bs ∧ ∀ checks, ∃ rest,
      Event.fromBytes checks bs
        = .ok (Event.new id none "" ((stringBytes name).take data.length) none ty, rest) := by
  have h0 : UInt16.ofNat (utf8 name).length = 0 := by
    apply UInt16.toNat_inj.mp
    simp
    rw [← stringBytes_eq]; omega
  obtain ⟨bs, h1, h2⟩ := C01_roundtrip (Event.new id none "" ((stringBytes name).take data.length) none ty)
    ⟨by simp [Event.new, headerSize, nsSize, stringBytes_eq, show utf8 "" = [] from rfl], by simp [Event.new]⟩ (by unfold Allocatable; simp [Event.new]; omega)
  refine ⟨_, rfl, fun checks => ⟨(stringBytes name).drop data.length ++ data, ?_⟩⟩
  rw [← h2 checks]
  congr 1
  unfold Event.intoBytes at h1
  injection h1 with h1
  rw [← h1]
  have e1 : (EventHeader.intoBytes ⟨id, ty, none, none, name⟩)
      = EventHeader.intoBytes ⟨id, ty, none, none, ""⟩ ++ stringBytes name := by
    unfold EventHeader.intoBytes
    simp [h0, show utf8 "" = [] from rfl, show UInt16.ofNat 0 = 0 from rfl, stringBytes_eq]
  have e2 : UInt16.ofNat (EventHeader.intoBytes ⟨id, ty, none, none, name⟩).length
      = UInt16.ofNat (EventHeader.intoBytes ⟨id, ty, none, none, ""⟩).length := by
    rw [e1]
    apply UInt16.toNat_inj.mp
    simp
    omega
  have e3 : ((stringBytes name).take data.length).length = data.length := by simp; omega
  simp only [Event.new, e2, e3]
  rw [e1]
  simp only [List.append_assoc, List.append_cancel_left_eq]
  rw [← List.append_assoc, List.take_append_drop]

example : ¬ Fits (Event.new 1 (some "") "x" [] none .initiator) := by decide
example : (stringBytes (String.ofList (List.replicate 65536 'a'))).length % 65536 = 0 := by
  have h : ∀ n, (stringBytes (String.ofList (List.replicate n 'a'))).length = n := by
    intro n
    induction n with
    | zero => rfl
    | succ n ih =>
      simp only [stringBytes, String.toByteArray_ofList, List.replicate_succ] at ih ⊢
      rw [List.utf8Encode_cons, ByteArray.data_append, Array.toList_append, List.length_append, ih]
      have : [('a' : Char)].utf8Encode.data.toList.length = 1 := by decide
      omega
  rw [h]

/-! ### C08 panics of the reader -/

/-- `r` starts with the two length fields `tl`, `hl` and a complete header block `hdr` of `hl` bytes that is a
valid header. -/
def CompleteHeader (r : Bytes) (tl : Nat) (hdr : Bytes) : Prop :=
  ∃ tlb hlb rest h ver extra, BigEndian 8 tl tlb ∧ BigEndian 2 hdr.length hlb ∧
    HeaderLayout h ver extra hdr ∧ r = tlb ++ hlb ++ hdr ++ rest

/-- `r` starts with the two length fields `tl`, `hl`. -/
def StartsWithLengths (r : Bytes) (tl hl : Nat) : Prop :=
  ∃ tlb hlb rest, BigEndian 8 tl tlb ∧ BigEndian 2 hl hlb ∧ r = tlb ++ hlb ++ rest

/-- The inputs on which the reader panics. -/
def PanicInput (checks : Bool) (r : Bytes) : Prop :=
  (checks = true ∧ ∃ tl hl, StartsWithLengths r tl hl ∧ tl < hl) ∨
  (∃ tl hdr, CompleteHeader r tl hdr ∧ (tl < hdr.length ∨ 2 ^ 63 - 1 < tl - hdr.length))

theorem panic_iff_aux (checks closed : Bool) (r : Bytes) :
    Event.fromAsyncRead (openSource closed) checks r = .panic ↔ PanicInput checks r := by
  unfold Event.fromAsyncRead
  simp only [openSource, bind_eq_panic, idealRead_ne_panic, false_or, Outcome.pure_eq, reduceCtorEq,
    and_false, exists_false, or_false, Prod.exists, idealRead_eq_ok, (tame_fromRead _).1, fromRead_eq_ok]
  constructor
  · rintro ⟨tlb, r1, ⟨rfl, h1⟩, hlb, r2, ⟨rfl, h2⟩, h⟩
    have hlt := beVal_lt tlb
    have hlt2 := beVal_lt hlb
    rw [h1] at hlt
    rw [h2] at hlt2
    have e1 : (UInt64.ofNat (beVal tlb)).toNat = beVal tlb := toNat64 (by omega)
    have e2 : (UInt16.ofNat (beVal hlb)).toNat = beVal hlb := toNat16 (by omega)
    have e3 : (UInt64.ofNat (beVal hlb)).toNat = beVal hlb := toNat64 (by omega)
    rw [e2] at h
    rcases h with h | ⟨dl, h3, hdr, r3, ⟨rfl, h4⟩, hd, ex, ⟨ver, h5⟩, h6⟩
    · unfold subU64 at h
      split at h
      · rename_i hc
        simp only [Bool.and_eq_true, decide_eq_true_eq, UInt64.lt_iff_toNat_lt, e1, e3] at hc
        exact .inl ⟨hc.1, _, _, ⟨tlb, hlb, r2, bigEndian_iff.mpr ⟨h1, rfl⟩, bigEndian_iff.mpr ⟨h2, rfl⟩,
          by simp⟩, hc.2⟩
      · cases h
    · unfold subU64 at h3
      split at h3
      · cases h3
      · injection h3 with h3
        subst h3
        refine .inr ⟨beVal tlb, hdr, ⟨tlb, hlb, r3, hd, ver, ex, bigEndian_iff.mpr ⟨h1, rfl⟩,
          bigEndian_iff.mpr ⟨h2, h4⟩, h5, by simp⟩, ?_⟩
        unfold allocVec at h6
        split at h6
        · simp at h6
        · rename_i hb
          by_cases hlt3 : beVal tlb < hdr.length
          · exact .inl hlt3
          · right
            have : UInt64.ofNat (beVal hlb) ≤ UInt64.ofNat (beVal tlb) := by
              rw [UInt64.le_iff_toNat_le, e1, e3]; omega
            rw [UInt64.toNat_sub_of_le _ _ this, e1, e3, isizeMax] at hb
            omega
  · rintro (⟨hc, tl, hl, ⟨tlb, hlb, rest, h1, h2, rfl⟩, h3⟩ | ⟨tl, hdr, hch, hbad⟩)
    · have l1 := bigEndian_lt h1
      have l2 := bigEndian_lt h2
      rw [bigEndian_iff] at h1 h2
      obtain ⟨h1, rfl⟩ := h1
      obtain ⟨h2, rfl⟩ := h2
      have e1 : (UInt64.ofNat (beVal tlb)).toNat = beVal tlb := toNat64 (by omega)
      have e2 : (UInt16.ofNat (beVal hlb)).toNat = beVal hlb := toNat16 (by omega)
      have e3 : (UInt64.ofNat (beVal hlb)).toNat = beVal hlb := toNat64 (by omega)
      refine ⟨tlb, hlb ++ rest, ⟨by simp, h1⟩, hlb, rest, ⟨rfl, h2⟩, .inl ?_⟩
      rw [e2]
      unfold subU64
      rw [if_pos]
      simp only [Bool.and_eq_true, decide_eq_true_eq, UInt64.lt_iff_toNat_lt, e1, e3]
      exact ⟨hc, h3⟩
    · by_cases hno : checks = true ∧ tl < hdr.length
      · obtain ⟨tlb, hlb, rest, hd, ver, ex, h1, h2, h5, rfl⟩ := hch
        have l1 := bigEndian_lt h1
        have l2 := bigEndian_lt h2
        rw [bigEndian_iff] at h1 h2
        obtain ⟨h1, rfl⟩ := h1
        obtain ⟨h2, h2'⟩ := h2
        have e1 : (UInt64.ofNat (beVal tlb)).toNat = beVal tlb := toNat64 (by omega)
        have e2 : (UInt16.ofNat (beVal hlb)).toNat = beVal hlb := toNat16 (by omega)
        have e3 : (UInt64.ofNat (beVal hlb)).toNat = beVal hlb := toNat64 (by omega)
        refine ⟨tlb, hlb ++ (hdr ++ rest), ⟨by simp, h1⟩, hlb, hdr ++ rest, ⟨rfl, h2⟩, .inl ?_⟩
        rw [e2]
        unfold subU64
        rw [if_pos]
        simp only [Bool.and_eq_true, decide_eq_true_eq, UInt64.lt_iff_toNat_lt, e1, e3]
        rw [← h2']; exact hno
      · obtain ⟨tlb, hlb, rest, hd, ver, ex, h1, h2, h5, rfl⟩ := hch
        have l1 := bigEndian_lt h1
        have l2 := bigEndian_lt h2
        rw [bigEndian_iff] at h1 h2
        obtain ⟨h1, rfl⟩ := h1
        obtain ⟨h2, h2'⟩ := h2
        have e1 : (UInt64.ofNat (beVal tlb)).toNat = beVal tlb := toNat64 (by omega)
        have e2 : (UInt16.ofNat (beVal hlb)).toNat = beVal hlb := toNat16 (by omega)
        have e3 : (UInt64.ofNat (beVal hlb)).toNat = beVal hlb := toNat64 (by omega)
        refine ⟨tlb, hlb ++ hdr ++ rest, ⟨by simp, h1⟩, hlb, hdr ++ rest, ⟨by simp, h2⟩, .inr ?_⟩
        rw [e2]
        refine ⟨UInt64.ofNat (beVal tlb) - UInt64.ofNat (beVal hlb), ?_, hdr, rest, ⟨rfl, h2'⟩, hd, ex, ⟨ver, h5⟩, ?_⟩
        · unfold subU64
          rw [if_neg]
          simp only [Bool.and_eq_true, decide_eq_true_eq, UInt64.lt_iff_toNat_lt, e1, e3]
          rw [← h2']; exact hno
        · unfold allocVec
          rw [if_neg]
          rw [isizeMax, UInt64.toNat_sub, e1, e3]
          omega

/-- C08, exact characterisation: on any transport, with any chunking, the reader panics iff the delivered
bytes are a `PanicInput`. -/
theorem C08_panic_iff (checks : Bool) (s : Script) :
    Event.fromAsyncRead scriptSource checks s = .panic ↔ PanicInput checks s.bytes := by
  rw [← panic_iff_aux checks s.closed]
  have key := script_read checks s
  cases h1 : Event.fromAsyncRead scriptSource checks s <;>
    cases h2 : Event.fromAsyncRead (openSource s.closed) checks s.bytes <;> rw [h1, h2] at key <;>
    simp_all

/-- C08 restricted to inputs whose header length does not exceed the total length and whose payload is
allocatable: no panic. The full property (no panic on any input) is refuted by `C08_violated_debug` and
`C08_violated_release`. -/
theorem C08_no_panic (checks : Bool) (s : Script)
    (h : ∀ tl hl, StartsWithLengths s.bytes tl hl → hl ≤ tl ∧ tl - hl ≤ 2 ^ 63 - 1) :
    Event.fromAsyncRead scriptSource checks s ≠ .panic := by
  rw [ne_eq, C08_panic_iff]
  rintro (⟨_, tl, hl, h1, h2⟩ | ⟨tl, hdr, ⟨tlb, hlb, rest, _, _, _, h1, h2, _, h3⟩, hbad⟩)
  · have := h tl hl h1; omega
  · have := h tl hdr.length ⟨tlb, hlb, hdr ++ rest, h1, h2, by simp [h3]⟩
    omega

/-- On a closed transport the reader never hangs: it returns an event, an error, or panics. -/
theorem C08_no_hang (checks : Bool) (s : Script) (hc : s.closed = true) :
    Event.fromAsyncRead scriptSource checks s ≠ .hang := by
  intro h
  have key := script_read checks s
  rw [h, hc, openSource_closed] at key
  have h2 : Event.fromAsyncRead byteSource checks s.bytes ≠ .hang := by
    unfold Event.fromAsyncRead
    simp only [byteSource, ne_eq, bind_eq_hang, (tame_readExact _ _).2, (tame_fromRead _).2,
      false_or, Outcome.pure_eq, reduceCtorEq, and_false, exists_false, or_false, Prod.exists, not_exists, not_and,
      not_or]
    intro a b _ a b _
    refine ⟨by unfold subU64; split <;> simp, fun _ _ _ _ _ _ _ _ => ?_⟩
    unfold allocVec; split <;> simp
  cases h3 : Event.fromAsyncRead byteSource checks s.bytes <;> rw [h3] at key <;> simp_all

/-- C08 is violated in debug builds by ten bytes: total length 0, header length 1. -/
theorem C08_violated_debug :
    Event.fromBytes true [0,0,0,0,0,0,0,0, 0,1] = .panic := by decide +kernel

/-- C08 is violated in release builds as well: a complete header (17 bytes) with total length 0. -/
theorem C08_violated_release :
    Event.fromBytes false [0,0,0,0,0,0,0,0, 0,17, 0,9,0, 0,0,0,0,0,0,0,1, 0, 0, 0,0, 0,0] = .panic := by
  decide +kernel

/-- The hypothesis of `C08_no_panic` is met by the encoding of every representable event. -/
theorem C08_no_panic_applies (e : Event) (hf : Fits e) (ha : Allocatable e) (bs : Bytes) (h : e.intoBytes = .ok bs)
    (tl hl : Nat) (hs : StartsWithLengths bs tl hl) : hl ≤ tl ∧ tl - hl ≤ 2 ^ 63 - 1 := by
  obtain ⟨bs', h1, tlb, hlb, hdr, h2, h3, h4, rfl⟩ := intoBytes_frameLayout hf ha
  rw [h] at h1
  injection h1 with h1
  subst h1
  obtain ⟨tlb', hlb', rest, h5, h6, h7⟩ := hs
  have h8 := h3.1
  have h9 := h4.1
  simp only [List.append_assoc] at h7
  obtain ⟨h10, h11⟩ := List.append_inj h7 (by rw [h8, h5.1])
  obtain ⟨h12, h13⟩ := List.append_inj h11 (by rw [h9, h6.1])
  rw [bigEndian_iff] at h3 h4 h5 h6
  rw [h5.2, h6.2, ← h10, ← h12, ← h3.2, ← h4.2]
  unfold Allocatable at ha
  omega

/-- C08, for a connection: the events before such an input are handed on, then the task that reads the connection panics; and only then. -/
theorem C08_read_loop (checks : Bool) (es : List Event) (frames : List Bytes) (hes : ∀ e ∈ es, Fits e ∧ Allocatable e) (hfr : es.map Event.intoBytes = frames.map Outcome.ok) (tail : Bytes)
    (s : Script) (hs : s.bytes = frames.flatten ++ tail) (fuel : Nat) (hfuel : es.length < fuel) :
    readLoop scriptSource checks fuel s = (es, .panic) ↔ PanicInput checks tail := by
  rw [readLoop_script, hs, ← panic_iff_aux checks s.closed]
  clear hs
  generalize s.closed = closed
  clear s
  induction es generalizing frames fuel with
  | nil =>
    have hn : frames = [] := by simpa using hfr
    subst hn
    obtain ⟨n, rfl⟩ := Nat.exists_eq_succ_of_ne_zero (by omega : fuel ≠ 0)
    simp only [List.flatten_nil, List.nil_append]
    unfold readLoop
    cases Event.fromAsyncRead (openSource closed) checks tail <;> simp
  | cons e es ih =>
    cases frames with
    | nil => simp at hfr
    | cons f frames =>
      simp only [List.map_cons, List.cons.injEq] at hfr
      obtain ⟨n, rfl⟩ := Nat.exists_eq_succ_of_ne_zero (by omega : fuel ≠ 0)
      have hE := hes e (by simp)
      obtain ⟨bs, h1, h2⟩ := C01_roundtrip e hE.1 hE.2
      rw [hfr.1] at h1
      injection h1 with h1
      subst h1
      have hr := openRead_of_ok (closed := closed) (h2 checks (frames.flatten ++ tail))
      have ih' := ih frames (fun e he => hes e (by simp [he])) hfr.2 n (by simp at hfuel; omega)
      rw [List.flatten_cons, List.append_assoc, readLoop_step n hr, ← ih']
      constructor
      · intro h
        injection h with h1 h2
        injection h1 with h3 h4
        exact Prod.ext h4 h2
      · intro h
        rw [h]

/-- An event, then the ten bytes. -/
example : (Event.fromBytes true [0,0,0,0,0,0,0,0, 0,1] = .panic) ∧
    ∃ bs, sampleEvent.intoBytes = .ok bs ∧ readLoop scriptSource true 2 { chunks := [.data (bs.headD 0) (bs.drop 1), .pending, .data 0 [0,0,0,0,0,0,0, 0,1]], closed := false } = ([sampleEvent], .panic) := by
  refine ⟨by decide +kernel, ?_⟩
  refine ⟨(match sampleEvent.intoBytes with | .ok b => b | _ => []), by decide +kernel, by decide +kernel⟩

end Bromine.Props
