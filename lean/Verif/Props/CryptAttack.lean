import Verif.Props.CryptEvents
/-
C39 (what happens beyond the boundary), C43.
-/
namespace Bromine.Props
open Bromine Bromine.Spec Bromine.CryptIO Bromine.CryptWire

theorem pollWriteAll_one (rem : Bytes) (n : Nat) (as : List IoAns) (hn : rem ≠ []) (h : rem.length ≤ n) :
    pollWriteAll rem (.ready n :: as) = (some (.ok ()), rem, [], as) := by
  cases rem with
  | nil => exact absurd rfl hn
  | cons b bs =>
    obtain ⟨m, rfl⟩ : ∃ m, n = m + 1 := ⟨n - 1, by simp at h; omega⟩
    rw [pollWriteAll]
    have hd : (b :: bs).drop (m + 1) = [] := List.drop_of_length_le h
    have ht : (b :: bs).take (m + 1) = b :: bs := List.take_of_length_le h
    rw [hd, ht]
    simp [pollWriteAll]

theorem packageBytes_ne_nil (c : Bytes) : packageBytes c ≠ [] := by
  intro h
  have := congrArg List.length h
  simp [packageBytes] at this

theorem length_packageBytes (c : Bytes) : (packageBytes c).length = c.length + 4 := by
  simp [packageBytes]; omega

/-- **C39, where a write is cut.** A write on an idle write half with 1024 bytes or more to send starts one package, whose plaintext is the first 2^32 - 1 bytes (all of them, if there are no
more); the rest stays in the buffer. What goes to the transport is that package from its first byte on, all of it if the write is ready. -/
theorem C39_cut (A : Aead) (ws : WriteStream) (hi : ws.inner = true) (hc : ws.cipher = true) (hf : ws.futWrite = none) (buf : Bytes) (as : List IoAns)
    (hb : 1024 ≤ (ws.buffer ++ buf).length) :
    let r := ws.pollWrite A buf as
    ∃ c, A.enc ws.enc.key (nonceFromNumber ws.enc.count) ((ws.buffer ++ buf).take (2 ^ 32 - 1)) = some c ∧ r.ws.buffer = (ws.buffer ++ buf).drop (2 ^ 32 - 1) ∧
      r.ws.enc.count = ws.enc.count + 1 ∧
      (∃ rem, packageBytes c = r.wire ++ rem ∧ (∀ u, r.poll = .pending u → r.ws.futWrite = some rem) ∧ ∀ n, r.poll = .ready (.ok n) → rem = [] ∧ n = buf.length) := by
  have hm : u32Max = 2 ^ 32 - 1 := rfl
  rw [← hm]
  have hw : WRITE_BUF_SIZE ≤ (ws.buffer ++ buf).length := hb
  obtain ⟨c, hx⟩ := Option.isSome_iff_exists.1 (A.total ws.enc.key (nonceFromNumber ws.enc.count) ((ws.buffer ++ buf).take u32Max)
    (by rw [List.length_take]; unfold u32Max; omega))
  simp only [WriteStream.pollWrite, hf, hw, if_true, hi, hc, Bool.and_self, Encryptor.encrypt, hx, pollFutWrite]
  refine ⟨c, rfl, ?_⟩
  rcases hp : pollWriteAll (packageBytes c) as with ⟨_ | x, w, rem, as'⟩
  · obtain ⟨h1, _⟩ := pollWriteAll_spec hp
    exact ⟨rfl, rfl, rem, h1, fun _ _ => rfl, fun _ h => by cases h⟩
  · obtain ⟨h1, h2, _⟩ := pollWriteAll_spec hp
    refine ⟨rfl, rfl, rem, h1, fun _ h => (by cases h), fun n h => ?_⟩
    cases x with
    | error e => cases h
    | ok u => exact ⟨h2 rfl, by simpa [Except.map] using h.symm⟩

/-- The same for a flush. -/
theorem C39_cut_flush (A : Aead) (ws : WriteStream) (hi : ws.inner = true) (hc : ws.cipher = true) (hf : ws.futFlush = none) (as : List IoAns) (hb : ws.buffer ≠ []) :
    let r := ws.pollFlush A as
    ∃ c, A.enc ws.enc.key (nonceFromNumber ws.enc.count) (ws.buffer.take (2 ^ 32 - 1)) = some c ∧ r.ws.buffer = ws.buffer.drop (2 ^ 32 - 1) ∧
      r.ws.enc.count = ws.enc.count + 1 ∧ ∃ rem, packageBytes c = r.wire ++ rem ∧ (r.poll = .ready (.ok ()) → rem = []) := by
  have hm : u32Max = 2 ^ 32 - 1 := rfl
  rw [← hm]
  obtain ⟨c, hx⟩ := Option.isSome_iff_exists.1 (A.total ws.enc.key (nonceFromNumber ws.enc.count) (ws.buffer.take u32Max)
    (by rw [List.length_take]; unfold u32Max; omega))
  have hpos : 0 < (ws.buffer.take u32Max).length := by
    have := List.length_pos_iff.2 hb
    rw [List.length_take]; unfold u32Max; omega
  simp only [WriteStream.pollFlush, hf, hi, hc, Bool.and_self, if_true, hpos, Encryptor.encrypt, hx, pollFlushWrite]
  refine ⟨c, rfl, ?_⟩
  rcases hp : pollWriteAll (packageBytes c) as with ⟨_ | (e | u), w, rem, as'⟩
  · obtain ⟨h1, _⟩ := pollWriteAll_spec hp
    exact ⟨rfl, rfl, rem, h1, fun h => by cases h⟩
  · obtain ⟨h1, _⟩ := pollWriteAll_spec hp
    exact ⟨rfl, rfl, rem, h1, fun h => by cases h⟩
  · obtain ⟨h1, h2, _⟩ := pollWriteAll_spec hp
    refine ⟨?_, ?_, rem, ?_, fun _ => h2 rfl⟩
    all_goals rcases as' with _ | ⟨(_ | _ | _), _⟩
    all_goals simp [pollFutFlush, h1]

/-- A write of 1500 bytes on a fresh write half is such a write. -/
example : let ws : WriteStream := { enc := { key := [1] } }
    ws.inner = true ∧ ws.cipher = true ∧ ws.futWrite = none ∧ 1024 ≤ (ws.buffer ++ List.replicate 1500 7).length := ⟨rfl, rfl, rfl, by rw [List.length_append, List.length_replicate]; decide⟩

/-- C39 does not hold at its boundary, with every cipher: an event whose frame has 2^32 - 16 bytes or more is sent in a package with a wrong
length (the code cuts at 2^32 - 1 bytes of plaintext, and forgets the tag). The emit returns `Ok`, but the peer does not get the event; its
reading of the connection ends with an error. -/
theorem C39_violated (A : Aead) (key : Bytes) (e : Event) (hbig : 2 ^ 32 ≤ frameSize e + 16) (n : Nat) (hn : frameSize e + 2 ^ 33 ≤ n) :
    ∃ s, CryptWire.run A (CryptWire.init key) [.start 0 e, .lock 0, .poll 0 [.ready n, .ready n, .ready n]] = some s ∧
      s.tasks 0 = some (.done e) ∧
      ∀ (checks : Bool) (sc : Script) (fuel : Nat), sc.bytes = s.wire →
        readLoop (cryptSource A) checks (fuel + 1) { rs := { dec := { key := key } }, script := sc } = ([], .err (.io .invalidData)) := by
  have hlen := length_frame e
  obtain ⟨f, hf⟩ : ∃ f, f = Wire.frame e := ⟨_, rfl⟩
  rw [← hf] at hlen
  have hb : WRITE_BUF_SIZE ≤ f.length := by rw [hlen]; unfold WRITE_BUF_SIZE; omega
  have htl : 2 ^ 32 - 16 ≤ (f.take u32Max).length ∧ (f.take u32Max).length ≤ 2 ^ 32 - 1 := by
    rw [List.length_take, hlen]; unfold u32Max; omega
  obtain ⟨c, hc⟩ := Option.isSome_iff_exists.1 (A.total key (nonceFromNumber 0) (f.take u32Max) (by omega))
  have hcl := A.len _ _ _ _ hc
  have hw : CryptWire.pollWriteStage A { CryptWire.init key with tasks := Wire.set (Wire.set (fun _ => none) 0 (some (.waiting e))) 0 (some (.writing e)), lock := some 0, log := [(0, e)] } 0 e [.ready n, .ready n, .ready n]
      = CryptWire.pollFlushStage A { CryptWire.init key with tasks := Wire.set (Wire.set (fun _ => none) 0 (some (.waiting e))) 0 (some (.writing e)), lock := some 0, log := [(0, e)] } 0 e
          { enc := { key := key, count := 1, log := [{ key := key, nonce := nonceFromNumber 0, plain := f.take u32Max }] }, buffer := f.drop u32Max }
          (packageBytes c) [.ready n, .ready n] := by
    simp only [CryptWire.pollWriteStage, CryptWire.init, WriteStream.pollWrite, List.nil_append, ← hf, hb, if_true, Bool.and_self,
      Encryptor.encrypt, hc, pollFutWrite]
    rw [pollWriteAll_one _ n _ (packageBytes_ne_nil c) (by rw [length_packageBytes]; omega)]
    simp only [Except.map]
    rfl
  have hfin : ∃ s more, CryptWire.pollFlushStage A { CryptWire.init key with tasks := Wire.set (Wire.set (fun _ => none) 0 (some (.waiting e))) 0 (some (.writing e)), lock := some 0, log := [(0, e)] } 0 e
          { enc := { key := key, count := 1, log := [{ key := key, nonce := nonceFromNumber 0, plain := f.take u32Max }] }, buffer := f.drop u32Max }
          (packageBytes c) [.ready n, .ready n] = s ∧ s.tasks 0 = some (.done e) ∧ s.wire = packageBytes c ++ more := by
    by_cases hr : 0 < ((f.drop u32Max).take u32Max).length
    · have hle : ((f.drop u32Max).take u32Max).length ≤ 2 ^ 32 - 1 := by rw [List.length_take]; unfold u32Max; omega
      obtain ⟨c2, hc2⟩ := Option.isSome_iff_exists.1 (A.total key (nonceFromNumber 1) ((f.drop u32Max).take u32Max) (by omega))
      have hc2l := A.len _ _ _ _ hc2
      refine ⟨_, packageBytes c2, rfl, ?_⟩
      simp only [CryptWire.pollFlushStage, WriteStream.pollFlush, hr, if_true, Bool.and_self, Encryptor.encrypt, hc2, pollFlushWrite]
      rw [pollWriteAll_one _ n _ (packageBytes_ne_nil c2) (by rw [length_packageBytes]; omega)]
      simp [pollFutFlush, Wire.set]
    · refine ⟨_, [], rfl, ?_⟩
      simp only [CryptWire.pollFlushStage, WriteStream.pollFlush, hr, if_false, if_true, Bool.and_self, pollFutFlush]
      simp [Wire.set]
  obtain ⟨s, more, h1, h2, h3⟩ := hfin
  refine ⟨s, ?_, h2, ?_⟩
  · rw [← h1, ← hw]
    simp [CryptWire.run, CryptWire.step, CryptWire.init, Wire.set]
  · rintro checks ⟨cs, closed⟩ fuel hsc
    have hsc : flat cs = s.wire := hsc
    -- the package as the reader sees it
    obtain ⟨m, hm⟩ : ∃ m, m = c.length - 2 ^ 32 := ⟨_, rfl⟩
    have hv : beVal (putU32 (UInt32.ofNat c.length)) = m := by
      unfold putU32
      rw [beVal_beBytes]
      simp
      omega
    have hpl : (putU32 (UInt32.ofNat c.length)).length = 4 := length_putU32 _
    have hmc : m ≤ c.length := by omega
    have hcomp : complete (putU32 (UInt32.ofNat c.length) ++ c.take m) = true := by
      have ht : (putU32 (UInt32.ofNat c.length) ++ c.take m).take 4 = putU32 (UInt32.ofNat c.length) := by
        rw [List.take_append_of_le_length (by omega), List.take_of_length_le (by omega)]
      rw [complete_iff, ht, hv, List.length_append, List.length_take]
      omega
    have hd : (putU32 (UInt32.ofNat c.length) ++ c.take m).drop 4 = c.take m := by
      rw [List.drop_append_of_le_length (by omega), List.drop_of_length_le (by omega), List.nil_append]
    have hdec : A.dec key (nonceFromNumber 0) (c.take m) = none := by
      cases hx : A.dec key (nonceFromNumber 0) (c.take m) with
      | none => rfl
      | some p =>
        have := A.len _ _ _ _ ((A.dec_iff _ _ _ _).1 hx)
        rw [List.length_take] at this
        omega
    have := read_undecipherable (A := A) (d := { key := key }) (closed := closed) (checks := checks) (cs := cs) (rest := c.drop m ++ more) hcomp
      (by rw [hsc, h3, packageBytes, List.append_assoc, List.append_assoc, ← List.append_assoc (c.take m), List.take_append_drop]) (by rw [hd]; exact hdec)
    unfold readLoop
    have h4 : ({ rs := { dec := { key := key } }, script := { chunks := cs, closed := closed } } : Reader) = idle { key := key } cs closed := rfl
    rw [h4, this]


theorem big_event (n : Nat) : ∃ e, Fits e ∧ n ≤ frameSize e :=
  ⟨Event.initiator 1 none "x" (List.replicate n 0),
    by unfold Fits; exact ⟨by show headerSize (Event.initiator 1 none "x" []).header ≤ 65535; decide, by simp [Event.initiator, Event.new]⟩, by
    have : (Event.initiator 1 none "x" (List.replicate n 0)).data.length = n := by
      simp only [Event.initiator, Event.new, List.length_replicate]
    unfold frameSize
    omega⟩

/-- There are such events. -/
example : ∃ e, Fits e ∧ 2 ^ 32 ≤ frameSize e + 16 := by
  obtain ⟨e, h1, h2⟩ := big_event (2 ^ 32)
  exact ⟨e, h1, by omega⟩

/-- C43. The bytes that reach the receiver are chosen by somebody else, who can only produce packages of the sender: every
piece `c` of the bytes that the session key deciphers under the nonce with number `i` is what the sender has sent
as package number `i`. Then the receiver delivers the sender's events from the first on, in order, without repetition or gap, up to some
point; there it ends with an error, or waits for more bytes. -/
theorem C43_prefix (A : Aead) (key : Bytes) (sent : List Event) (hs : ∀ e ∈ sent, Small e) (hn : sent.length < 2 ^ 64) (sc : Script)
    (unforged : ∀ (i : Nat) (nonce c p : Bytes), i < 2 ^ 64 → Nonce i nonce → c <:+: sc.bytes → A.dec key nonce c = some p →
      ∃ e, sent[i]? = some e ∧ FrameLayout e [0, 9, 0] [] p)
    (checks : Bool) (fuel : Nat) (hf : sent.length < fuel) :
    ∃ es r, readLoop (cryptSource A) checks fuel { rs := { dec := { key := key } }, script := sc } = (es, r) ∧ es <+: sent ∧
      (r = .err (.io .invalidData) ∨ (r = .err (.io .unexpectedEof) ∧ sc.closed = true) ∨ (r = .hang ∧ sc.closed = false)) := by
  obtain ⟨cs0, closed⟩ := sc
  have key1 : ∀ (fuel k : Nat) (cs : List Chunk), k ≤ sent.length → sent.length < k + fuel → (∃ x, flat cs0 = x ++ flat cs) →
      ∃ m r, readLoop (cryptSource A) checks fuel (idle { key := key, count := UInt64.ofNat k } cs closed) = ((sent.drop k).take m, r) ∧
        (r = .err (.io .invalidData) ∨ (r = .err (.io .unexpectedEof) ∧ closed = true) ∨ (r = .hang ∧ closed = false)) := by
    intro fuel
    induction fuel with
    | zero => intro k cs h1 h2; omega
    | succ fuel ih =>
      intro k cs hk hkf hx
      rcases complete_or (flat cs) with ⟨p, rest, h1, h2⟩ | h1
      · cases hd : A.dec key (nonceFromNumber (UInt64.ofNat k)) (p.drop 4) with
        | none =>
          refine ⟨0, _, ?_, Or.inl rfl⟩
          unfold readLoop
          rw [read_undecipherable h2 h1 hd]
          simp
        | some q =>
          obtain ⟨x, hx⟩ := hx
          have hin : p.drop 4 <:+: flat cs0 := by
            refine ⟨x ++ p.take 4, rest, ?_⟩
            rw [hx, h1, ← List.take_append_drop 4 p]
            simp
          obtain ⟨e, he, hl⟩ := unforged k _ _ q (by omega) (nonce_spec k) hin hd
          have hkl : k < sent.length := by
            rcases Nat.lt_or_ge k sent.length with h | h
            · exact h
            · rw [List.getElem?_eq_none h] at he; cases he
          have hes : Small e := hs e (List.mem_of_getElem? he)
          have hal : Allocatable e := by have := hes.2; unfold frameSize at this; unfold Allocatable; omega
          have hfb : Event.fromBytes checks q = .ok (e, []) := fromBytes_eq_ok.2 ⟨hal, _, _, q, hl, by simp⟩
          have hne : q ≠ [] := by
            rintro rfl
            obtain ⟨tlb, hlb, hdr, _, g1, _, g2⟩ := hl
            have := congrArg List.length g2
            have := g1.1
            simp at *
            omega
          obtain ⟨cs', g1, g2⟩ := read_sealed (A := A) (d := { key := key, count := UInt64.ofNat k }) (closed := closed) h2 hd hfb hne h1
          rw [readLoop_step fuel g2]
          simp only [ofNat_succ]
          obtain ⟨m, r, g3, g4⟩ := ih (k + 1) cs' (by omega) (by omega) ⟨x ++ p, by rw [hx, h1, g1]; simp⟩
          refine ⟨m + 1, r, ?_, g4⟩
          rw [g3]
          have : sent.drop k = e :: sent.drop (k + 1) := by
            rw [List.drop_eq_getElem_cons hkl]
            rw [List.getElem?_eq_getElem hkl] at he
            injection he with he
            rw [he]
          rw [this, List.take_succ_cons]
      · refine ⟨0, if closed then .err (.io .unexpectedEof) else .hang, ?_, ?_⟩
        · unfold readLoop
          rw [read_cut h1]
          cases closed <;> simp
        · cases closed <;> simp
  obtain ⟨m, r, h1, h2⟩ := key1 fuel 0 cs0 (by omega) (by omega) ⟨[], rfl⟩
  exact ⟨_, r, h1, by simpa using List.take_prefix m sent, h2⟩

/-- C43 with both directions. The attacker may also use the packages of the other direction: every piece of the bytes that the session key deciphers under the
nonce with number `i` is what the peer has sent as package number `i`, or what this side has itself sent as its package number `i`. Then the receiver still delivers at place `i` nothing
but one of these two: no event is delivered at another place than its own, dropped from the middle, altered or repeated; then it ends with an error, or waits. -/
theorem C43_positions (A : Aead) (key : Bytes) (sent own : List Event) (hs : ∀ e ∈ sent ++ own, Small e) (hn : sent.length + own.length < 2 ^ 64) (sc : Script)
    (unforged : ∀ (i : Nat) (nonce c p : Bytes), i < 2 ^ 64 → Nonce i nonce → c <:+: sc.bytes → A.dec key nonce c = some p →
      ∃ e, (sent[i]? = some e ∨ own[i]? = some e) ∧ FrameLayout e [0, 9, 0] [] p)
    (checks : Bool) (fuel : Nat) (hf : sent.length + own.length < fuel) :
    ∃ es r, readLoop (cryptSource A) checks fuel { rs := { dec := { key := key } }, script := sc } = (es, r) ∧
      (∀ (i : Nat) (e : Event), es[i]? = some e → sent[i]? = some e ∨ own[i]? = some e) ∧
      (r = .err (.io .invalidData) ∨ (r = .err (.io .unexpectedEof) ∧ sc.closed = true) ∨ (r = .hang ∧ sc.closed = false)) := by
  obtain ⟨cs0, closed⟩ := sc
  have key1 : ∀ (fuel k : Nat) (cs : List Chunk), k ≤ sent.length + own.length → sent.length + own.length < k + fuel → (∃ x, flat cs0 = x ++ flat cs) →
      ∃ es r, readLoop (cryptSource A) checks fuel (idle { key := key, count := UInt64.ofNat k } cs closed) = (es, r) ∧
        (∀ (i : Nat) (e : Event), es[i]? = some e → sent[k + i]? = some e ∨ own[k + i]? = some e) ∧
        (r = .err (.io .invalidData) ∨ (r = .err (.io .unexpectedEof) ∧ closed = true) ∨ (r = .hang ∧ closed = false)) := by
    intro fuel
    induction fuel with
    | zero => intro k cs h1 h2; omega
    | succ fuel ih =>
      intro k cs hk hkf hx
      rcases complete_or (flat cs) with ⟨p, rest, h1, h2⟩ | h1
      · cases hd : A.dec key (nonceFromNumber (UInt64.ofNat k)) (p.drop 4) with
        | none =>
          refine ⟨[], _, ?_, by simp, Or.inl rfl⟩
          unfold readLoop
          rw [read_undecipherable h2 h1 hd]
        | some q =>
          obtain ⟨x, hx⟩ := hx
          have hin : p.drop 4 <:+: flat cs0 := by
            refine ⟨x ++ p.take 4, rest, ?_⟩
            rw [hx, h1, ← List.take_append_drop 4 p]
            simp
          obtain ⟨e, he, hl⟩ := unforged k _ _ q (by omega) (nonce_spec k) hin hd
          have hkl : k < sent.length + own.length := by
            rcases he with he | he
            · have := (List.getElem?_eq_some_iff.1 he).1; omega
            · have := (List.getElem?_eq_some_iff.1 he).1; omega
          have hes : Small e := hs e (by rw [List.mem_append]; exact he.imp List.mem_of_getElem? List.mem_of_getElem?)
          have hal : Allocatable e := by have := hes.2; unfold frameSize at this; unfold Allocatable; omega
          have hfb : Event.fromBytes checks q = .ok (e, []) := fromBytes_eq_ok.2 ⟨hal, _, _, q, hl, by simp⟩
          have hne : q ≠ [] := by
            rintro rfl
            obtain ⟨tlb, hlb, hdr, _, g1, _, g2⟩ := hl
            have := congrArg List.length g2
            have := g1.1
            simp at *
            omega
          obtain ⟨cs', g1, g2⟩ := read_sealed (A := A) (d := { key := key, count := UInt64.ofNat k }) (closed := closed) h2 hd hfb hne h1
          rw [readLoop_step fuel g2]
          simp only [ofNat_succ]
          obtain ⟨es, r, g3, g4, g5⟩ := ih (k + 1) cs' (by omega) (by omega) ⟨x ++ p, by rw [hx, h1, g1]; simp⟩
          refine ⟨e :: es, r, by rw [g3], fun i e' hi => ?_, g5⟩
          cases i with
          | zero =>
            simp only [List.getElem?_cons_zero, Option.some.injEq] at hi
            subst hi; exact he
          | succ i =>
            have := g4 i e' (by simpa using hi)
            rwa [show k + 1 + i = k + (i + 1) by omega] at this
      · refine ⟨[], if closed then .err (.io .unexpectedEof) else .hang, ?_, by simp, ?_⟩
        · unfold readLoop
          rw [read_cut h1]
          cases closed <;> simp
        · cases closed <;> simp
  obtain ⟨es, r, h1, h2, h3⟩ := key1 fuel 0 cs0 (by omega) (by omega) ⟨[], rfl⟩
  exact ⟨es, r, h1, by simpa using h2, h3⟩

/-- C43 does not hold for packages of the other direction, with every cipher: whatever a side sends, if the attacker sends it
back, this side takes it for events of its peer. `side` is one side after the key exchange. -/
theorem C43_violated_reflection (A : Aead) (secret key : Bytes) (ops : List CryptWire.Op) (s : CryptWire.State)
    (hr : CryptWire.run A { ws := ((CryptStream.new secret).updateKey key).write } ops = some s) (hb : s.broken = false)
    (hl : s.lock = none) (hs : ∀ t e, (t, e) ∈ s.log → Small e) (checks : Bool) (sc : Script) (hsc : sc.bytes = s.wire) :
    readLoop (cryptSource A) checks (s.log.length + 1) { rs := ((CryptStream.new secret).updateKey key).read, script := sc }
      = (s.log.map Prod.snd, if sc.closed then .err (.io .unexpectedEof) else .hang) := by
  obtain ⟨es, h1, h2, -⟩ := C40_peer_reads A key ops s hr hb hs checks sc hsc (s.log.length + 1) (by omega)
  rw [← h2 hl]
  exact h1

/-! ### The hypotheses can be met -/

theorem small_empty : Small emptyEvent := ⟨by decide, by decide⟩
theorem small_sample : Small sampleEvent := ⟨by decide, by decide⟩

/-- An event of more than 1024 bytes. -/
def longEvent : Event := Event.initiator 3 none "long" (List.replicate 1100 7)

theorem small_long : Small longEvent := ⟨by decide +kernel, by decide +kernel⟩

/-- Three emitters on one connection, a long and two short events, with partial and pending writes; the last one is
in the middle of its package. -/
def busyOps : List CryptWire.Op :=
  [.start 1 sampleEvent, .start 2 longEvent, .start 3 emptyEvent, .lock 2, .poll 2 [.ready 3, .ready 500, .pending], .poll 2 [.ready 5000, .pending],
   .poll 2 [.ready 1], .lock 1, .poll 1 [.ready 7], .poll 1 [.ready 400], .poll 1 [.pending], .poll 1 [.ready 9], .lock 3, .poll 3 [.ready 11]]

/-- C40 applies to a run with concurrent emitters; it ends in the middle of a package. -/
theorem busy_run : ∃ s, CryptWire.run toyAead (CryptWire.init [1, 2]) busyOps = some s ∧ s.broken = false ∧ s.lock = some 3 ∧
    s.log = [(2, longEvent), (1, sampleEvent), (3, emptyEvent)] ∧ s.wire.length = 1131 + 20 + 84 + 11 := by
  have h : (CryptWire.run toyAead (CryptWire.init [1, 2]) busyOps).map (fun s => (s.broken, s.lock, s.log, s.wire.length))
      = some (false, some 3, [(2, longEvent), (1, sampleEvent), (3, emptyEvent)], 1131 + 20 + 84 + 11) := by decide +kernel
  obtain ⟨s, h1, h2⟩ := Option.map_eq_some_iff.1 h
  simp only [Prod.mk.injEq] at h2
  exact ⟨s, h1, h2⟩

example : ∃ s, CryptWire.run toyAead (CryptWire.init [1, 2]) busyOps = some s ∧ s.broken = false ∧ (∀ t e, (t, e) ∈ s.log → Small e) ∧
    s.lock = some 3 := by
  obtain ⟨s, h1, h2, h3, h4, -⟩ := busy_run
  refine ⟨s, h1, h2, ?_, h3⟩
  intro t e h
  rw [h4] at h
  simp only [List.mem_cons, Prod.mk.injEq, List.not_mem_nil, or_false] at h
  rcases h with ⟨-, rfl⟩ | ⟨-, rfl⟩ | ⟨-, rfl⟩
  · exact small_long
  · exact small_sample
  · exact small_empty

/-- A short event. -/
def tinyEvent : Event :=
  { header := { id := 0x0102030405060708, eventType := .error, refId := none, ns := none, name := "" }, data := [] }

theorem small_tiny : Small tinyEvent := ⟨by decide, by decide⟩

/-- The attacker replays the only package. -/
def replay : Bytes := pk toyAead [1, 2] 0 tinyEvent ++ pk toyAead [1, 2] 0 tinyEvent

/-- The same, computed. -/
def replayed : Bytes := [0, 0, 0, 43, 0, 0, 0, 0, 0, 0, 0, 0, 0, 0, 0, 0, 30, 218, 98, 168, 0, 0, 0, 0, 0, 0, 0, 17, 0, 17, 0, 9, 0, 1, 2, 3, 4, 5, 6, 7, 8, 3, 0, 0, 0, 0, 0, 0, 0, 0, 43, 0, 0, 0, 0, 0, 0, 0, 0, 0, 0, 0, 0, 30, 218, 98, 168, 0, 0, 0, 0, 0, 0, 0, 17, 0, 17, 0, 9, 0, 1, 2, 3, 4, 5, 6, 7, 8, 3, 0, 0, 0, 0, 0]

theorem replay_eq : replay = replayed := by decide +kernel

theorem infix_cut {c l : Bytes} (h : c <:+: l) : ∃ i j, i < l.length + 1 ∧ j < l.length + 1 ∧ c = (l.drop i).take j := by
  obtain ⟨a, b, h⟩ := h
  refine ⟨a.length, c.length, ?_, ?_, ?_⟩
  · rw [← h]; simp
    omega
  · rw [← h]; simp
    omega
  · rw [← h, List.append_assoc, List.drop_append_of_le_length (by simp), List.drop_of_length_le (by simp), List.nil_append,
      List.take_append_of_le_length (by simp), List.take_of_length_le (by simp)]

/-- C43 applies to a replayed package: the toy cipher cannot be forged there. -/
theorem replay_unforged : ∀ (i : Nat) (nonce c p : Bytes), i < 2 ^ 64 → Nonce i nonce → c <:+: replay → toyAead.dec [1, 2] nonce c = some p →
    ∃ e, [tinyEvent][i]? = some e ∧ FrameLayout e [0, 9, 0] [] p := by
  intro i nonce c p hi hno hc hd
  have hfin : ∀ i < 95, ((replayed.drop i).drop 8).take 4 ≠ (replayed.drop i).take 4 ∨ ∀ j < 95,
      toyAead.dec [1, 2] (((replayed.drop i).take j).take 12) ((replayed.drop i).take j) = none ∨
      (beVal (((replayed.drop i).take j).take 8) = 0 ∧
        toyAead.dec [1, 2] (((replayed.drop i).take j).take 12) ((replayed.drop i).take j) = some (Wire.frame tinyEvent)) := by
    decide +kernel
  obtain ⟨nb, h1, h2⟩ := hno
  have hnl : nonce.length = 12 := by
    have := h1.1
    rw [h2]; simp; omega
  have hcl : c.take 16 = toyTag [1, 2] nonce (c.drop 16) := by
    simp only [toyAead] at hd
    split at hd
    · assumption
    · cases hd
  have hn : c.take 12 = nonce := by
    have h3 := congrArg (List.take 12) hcl
    simp only [toyTag, List.take_take] at h3
    rw [List.take_append_of_le_length (by simp), List.take_take, List.take_append_of_le_length (by omega)] at h3
    rw [show min 12 16 = 12 from rfl, show min 12 12 = 12 from rfl] at h3
    rw [h3, List.take_of_length_le (by omega)]
  have hnb : c.take 8 = nb := by
    have h3 := congrArg (List.take 8) (hn.trans h2)
    rw [List.take_take, List.take_append_of_le_length (by have := h1.1; omega)] at h3
    rw [show min 8 12 = 8 from rfl] at h3
    rw [h3, List.take_of_length_le (by have := h1.1; omega)]
  have hbi : i = beVal (c.take 8) := by
    have := (bigEndian_iff.1 h1).2
    rw [← hnb] at this
    rw [← this]; omega
  obtain ⟨a, b, ha, hb, hab⟩ := infix_cut hc
  rw [replay_eq] at ha hb hab
  have hcl12 : 12 ≤ c.length := by
    have := congrArg List.length hn
    rw [List.length_take, hnl] at this
    omega
  rcases hfin a ha with h | h
  · exfalso
    apply h
    have hb12 : 12 ≤ b := by
      rw [hab, List.length_take] at hcl12
      omega
    have e1 : ((replayed.drop a).drop 8).take 4 = (c.drop 8).take 4 := by
      rw [hab, List.drop_take, List.take_take]
      congr 1
      omega
    have e2 : (replayed.drop a).take 4 = c.take 4 := by
      rw [hab, List.take_take]
      congr 1
      omega
    have e3 : (c.drop 8).take 4 = (c.take 12).drop 8 := by rw [List.drop_take]
    have e4 : c.take 4 = (c.take 8).take 4 := by rw [List.take_take]; rfl
    rw [e1, e2, e3, e4, hn, hnb, h2, List.drop_append_of_le_length (by have := h1.1; omega), List.drop_of_length_le (by have := h1.1; omega),
      List.nil_append]
  · have := h b hb
    rw [← hab, hn, ← hbi] at this
    rcases this with h | ⟨h, h'⟩
    · rw [hd] at h; cases h
    · rw [hd] at h'
      injection h' with h'
      subst h h'
      exact ⟨tinyEvent, rfl, frame_layout small_tiny⟩

/-- The receiver delivers the event once and reports an error. -/
example : readLoop (cryptSource toyAead) true 5 { rs := { dec := { key := [1, 2] } }, script := { chunks := [.data (replay.headD 0) (replay.drop 1)], closed := false } }
    = ([tinyEvent], .err (.io .invalidData)) := by decide +kernel

/-- `C43_violated_reflection` is about something. -/
example : ∃ s, CryptWire.run toyAead { ws := ((CryptStream.new [9]).updateKey [1, 2]).write }
    [.start 1 sampleEvent, .lock 1, .poll 1 [.ready 4000, .ready 1]] = some s ∧ s.broken = false ∧ s.lock = none ∧ s.log = [(1, sampleEvent)] := by
  have h : (CryptWire.run toyAead { ws := ((CryptStream.new [9]).updateKey [1, 2]).write }
      [.start 1 sampleEvent, .lock 1, .poll 1 [.ready 4000, .ready 1]]).map (fun s => (s.broken, s.lock, s.log))
      = some (false, none, [(1, sampleEvent)]) := by decide +kernel
  obtain ⟨s, h1, h2⟩ := Option.map_eq_some_iff.1 h
  simp only [Prod.mk.injEq] at h2
  exact ⟨s, h1, h2⟩

end Bromine.Props
