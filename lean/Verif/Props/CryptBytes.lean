import Verif.Lemmas.CryptBytes
import Verif.Props.CryptPoll
/-
C59: an encrypted connection carries arbitrary byte streams.
-/
namespace Bromine.Props
open Bromine Bromine.Spec Bromine.CryptIO Bromine.CryptBytes

/-- The transport reports no error and does not refuse bytes. -/
def TransportFine (as : List IoAns) : Prop := (∀ e, IoAns.fail e ∉ as) ∧ IoAns.ready 0 ∉ as

/-- The polls of a caller of the write half: buffers below 4 GiB by more than 1040 bytes, a transport that works. -/
def PollsFine (ps : List (Call × List IoAns)) : Prop :=
  ∀ p ∈ ps, (∀ buf, p.1 = .write buf → buf.length + 1040 < 2 ^ 32) ∧ TransportFine p.2

theorem smallCall_iff {c : Call} : SmallCall c ↔ ∀ buf, c = .write buf → buf.length + 1040 < 2 ^ 32 := by
  cases c with
  | write buf => constructor
                 · intro h b hb; cases hb; exact h
                 · intro h; exact h buf rfl
  | flush => simp [SmallCall]

theorem fine_iff {as : List IoAns} : Fine as ↔ TransportFine as := by
  simp [Fine, CryptWire.Bad, TransportFine]

theorem winv_of_polls {A : Aead} {key : Bytes} {ps : List (Call × List IoAns)} {s : Writer}
    (hr : Writer.polls A { ws := { enc := { key := key } } } ps = some s) (hp : PollsFine ps) : s.failed = false ∧ WInv A key s :=
  winv_polls ps (winv_init A key []) rfl (fun p h => ⟨smallCall_iff.2 (hp p h).1, fine_iff.2 (hp p h).2⟩) hr

/-- **C59, writing.** Whatever is written, in buffers of any size and with flushes anywhere: no call fails, and the bytes on the wire are the beginning
of a sequence of packages, numbered from 0, whose plaintexts in a row are the beginning of what has been written. -/
theorem C59_written (A : Aead) (key : Bytes) (ps : List (Call × List IoAns)) (s : Writer)
    (hr : Writer.polls A { ws := { enc := { key := key } } } ps = some s) (hp : PollsFine ps) :
    s.failed = false ∧ ∃ ms rest, Packages A key 0 ms (s.wire ++ rest) ∧
      ms.flatten <+: s.accepted ++ (match s.cur with | some (.write buf) => buf | _ => []) := by
  obtain ⟨hf, ms, rem, h1, -, h3, -, -⟩ := winv_of_polls hr hp
  refine ⟨hf, ms, rem, h1, s.ws.buffer, ?_⟩
  rw [h3]
  rfl

/-- **C59, flushing.** When a flush has returned, everything that had been written is completely on the wire. -/
theorem C59_flushed (A : Aead) (key : Bytes) (ps : List (Call × List IoAns)) (s : Writer)
    (hr : Writer.polls A { ws := { enc := { key := key } } } ps = some s) (hp : PollsFine ps) (hfl : s.flushed = true) (hc : s.cur = none) :
    ∃ ms, Packages A key 0 ms s.wire ∧ ms.flatten = s.accepted := by
  obtain ⟨hf, ms, rem, h1, -, h3, -, h5⟩ := winv_of_polls hr hp
  rcases h5 with ⟨-, rfl, x, b, h6, h7⟩ | ⟨buf, x, h6, -⟩ | ⟨x, f, h6, -⟩
  · have := h7 hfl
    subst this
    refine ⟨ms, by simpa using h1, ?_⟩
    rw [h6, hc] at h3
    simpa [curBytes] using h3
  · rw [hc] at h6; cases h6
  · rw [hc] at h6; cases h6

theorem packages_length {A : Aead} {key : Bytes} : ∀ {ms : List Bytes} {i : Nat} {bs : Bytes}, Packages A key i ms bs → bs.length = ms.flatten.length + 20 * ms.length := by
  intro ms
  induction ms with
  | nil => intro i bs h; rw [show bs = [] from h]; rfl
  | cons m ms ih =>
    rintro i bs ⟨pkg, rest, ⟨nonce, c, lb, -, h3, h4, rfl⟩, rfl, h2⟩
    have h5 := (bigEndian_iff.1 h4).1
    simp only [List.length_append, List.flatten_cons, List.length_cons, ih h2, A.len _ _ _ _ h3, h5]
    omega

/-- **C59, what is held back.** Between calls, also without any flush, fewer than 1024 bytes, the last ones, of what has been written are not on the wire yet; the others are, in complete packages, each of which adds 20 bytes. -/
theorem C59_held_back (A : Aead) (key : Bytes) (ps : List (Call × List IoAns)) (s : Writer)
    (hr : Writer.polls A { ws := { enc := { key := key } } } ps = some s) (hp : PollsFine ps) (hc : s.cur = none) :
    ∃ ms held, s.accepted = ms.flatten ++ held ∧ held.length < 1024 ∧ Packages A key 0 ms s.wire ∧ s.wire.length = s.accepted.length - held.length + 20 * ms.length := by
  obtain ⟨hf, ms, rem, h1, -, h3, h4, h5⟩ := winv_of_polls hr hp
  rcases h5 with ⟨-, rfl, x, b, h6, h7⟩ | ⟨buf, x, h6, -⟩ | ⟨x, f, h6, -⟩
  · rw [List.append_nil] at h1
    rw [hc] at h3
    have h3' : s.accepted = ms.flatten ++ s.ws.buffer := by simpa [curBytes] using h3.symm
    refine ⟨ms, s.ws.buffer, h3', h4, h1, ?_⟩
    rw [packages_length h1, h3', List.length_append]
    omega
  · rw [hc] at h6; cases h6
  · rw [hc] at h6; cases h6

/-- In a poll, the transport is ready for at least one byte. -/
def TransportReady (as : List IoAns) : Prop := ∃ n rest, as = .ready (n + 1) :: rest

theorem pollWriteAll_ready {rem : Bytes} {as : List IoAns} {w rem' : Bytes} {as' : List IoAns} (ha : TransportReady as) (h : pollWriteAll rem as = (none, w, rem', as')) : rem'.length < rem.length := by
  obtain ⟨n, rest, rfl⟩ := ha
  cases rem with
  | nil => simp [pollWriteAll] at h
  | cons b bs =>
    rw [pollWriteAll] at h
    generalize hx : pollWriteAll ((b :: bs).drop (n + 1)) rest = v at h
    obtain ⟨r1, w1, rem1, as1⟩ := v
    simp only [Prod.mk.injEq] at h
    obtain ⟨rfl, -, rfl, -⟩ := h
    have := congrArg List.length (CryptWire.pollWriteAll_spec hx).1
    simp only [List.length_drop, List.length_append, List.length_cons] at this ⊢
    omega

/-- How much a call that is not ready has to write. -/
def left (ws : WriteStream) : Nat :=
  match ws.futWrite, ws.futFlush with
  | some rem, _ => rem.length + 1
  | none, some (.writing rem) => rem.length + 1
  | none, _ => 0

theorem call_enabled {A : Aead} {s : Writer} {c : Call} {as : List IoAns} (hf : s.failed = false) (hc : s.cur = none ∨ s.cur = some c) : ∃ s', s.poll A c as = some s' := by
  unfold Writer.poll
  rw [if_neg (by rw [hf]; rcases hc with h | h <;> simp [h])]
  cases c with
  | write buf => dsimp only; split <;> exact ⟨_, rfl⟩
  | flush => dsimp only; split <;> exact ⟨_, rfl⟩

theorem call_cur {A : Aead} {s s' : Writer} {c : Call} {as : List IoAns} (hs : s.poll A c as = some s') (hf : s'.failed = false) : s'.cur = none ∨ s'.cur = some c := by
  unfold Writer.poll at hs
  split at hs
  · cases hs
  · cases c with
    | write buf =>
      dsimp only at hs
      split at hs <;> cases hs
      · exact .inr rfl
      · exact .inl rfl
      · cases hf
    | flush =>
      dsimp only at hs
      split at hs <;> cases hs
      · exact .inr rfl
      · exact .inl rfl
      · cases hf

theorem call_advances {A : Aead} {key : Bytes} {s s' : Writer} {c : Call} {as : List IoAns} (h : WInv A key s) (hc : s.cur = some c) (ha : TransportReady as) (hs : s.poll A c as = some s') (hf : s'.failed = false) :
    s'.cur = none ∨ left s'.ws < left s.ws := by
  obtain ⟨ms, rem, -, -, -, -, h5⟩ := h
  unfold Writer.poll at hs
  split at hs
  · cases hs
  · rcases h5 with ⟨h5, -⟩ | ⟨buf, x, h5, h6⟩ | ⟨x, f, h5, h6, h7⟩
    · rw [h5] at hc; cases hc
    · rw [h5] at hc
      cases hc
      simp only [h6, WriteStream.pollWrite, pollFutWrite] at hs
      generalize hw : pollWriteAll rem as = v at hs
      obtain ⟨r, w, rem', as'⟩ := v
      cases r with
      | none =>
        simp only at hs
        cases hs
        right
        have := pollWriteAll_ready ha hw
        simpa [left, h6] using this
      | some r =>
        cases r with
        | error e => simp only [Except.map] at hs; cases hs; cases hf
        | ok u => simp only [Except.map] at hs; cases hs; exact .inl rfl
    · rw [h5] at hc
      cases hc
      cases f with
      | flushing =>
        obtain ⟨n, rest, rfl⟩ := ha
        simp only [h6, WriteStream.pollFlush, pollFutFlush] at hs
        cases hs
        exact .inl rfl
      | writing rem' =>
        simp only [CryptWire.remOf] at h7
        subst h7
        simp only [h6, WriteStream.pollFlush, pollFlushWrite] at hs
        generalize hw : pollWriteAll rem' as = v at hs
        obtain ⟨r, w, rem'', as'⟩ := v
        cases r with
        | none =>
          simp only at hs
          cases hs
          right
          have := pollWriteAll_ready ha hw
          simpa [left, h6] using this
        | some r =>
          cases r with
          | error e => simp only at hs; cases hs; cases hf
          | ok u =>
            cases as' with
            | nil => simp only [pollFutFlush] at hs; cases hs; right; simp [left, h6]
            | cons a as' =>
              cases a with
              | pending => simp only [pollFutFlush] at hs; cases hs; right; simp [left, h6]
              | fail e => simp only [pollFutFlush] at hs; cases hs; cases hf
              | ready n => simp only [pollFutFlush] at hs; cases hs; exact .inl rfl

theorem call_ends {A : Aead} {key : Bytes} {c : Call} (hsm : ∀ buf, c = .write buf → buf.length + 1040 < 2 ^ 32) : ∀ (k : Nat) {s : Writer} {f : Nat → List IoAns}, left s.ws = k → WInv A key s → s.failed = false → s.cur = some c →
    (∀ i, TransportFine (f i) ∧ TransportReady (f i)) → ∃ n s', s.polls A ((List.range n).map fun i => (c, f i)) = some s' ∧ s'.cur = none ∧ s'.failed = false := by
  intro k
  induction k using Nat.strongRecOn with
  | ind k ih =>
    intro s f hk hi hf hc ha
    obtain ⟨s1, h1⟩ := call_enabled (A := A) (as := f 0) hf (.inr hc)
    obtain ⟨h2, h3⟩ := winv_poll hi (smallCall_iff.2 hsm) (fine_iff.2 (ha 0).1) h1
    by_cases h4 : s1.cur = none
    · exact ⟨1, s1, by simp [Writer.polls, h1], h4, h2⟩
    · have h5 := (call_advances hi hc (ha 0).2 h1 h2).resolve_left h4
      have h6 := (call_cur h1 h2).resolve_left h4
      obtain ⟨n, s', g1, g2, g3⟩ := ih _ (by omega) (s := s1) (f := fun i => f (i + 1)) rfl h3 h2 h6 fun i => ha (i + 1)
      refine ⟨n + 1, s', ?_, g2, g3⟩
      rw [List.range_succ_eq_map, List.map_cons, List.map_map, Writer.polls, h1, Option.bind_some]
      exact g1

/-- **C59, progress.** Whatever has been written and flushed before: every write and every flush, new or under way, returns `Ok` if it is polled again and again and the transport takes at least one byte in each poll. -/
theorem C59_finishes (A : Aead) (key : Bytes) (ps : List (Call × List IoAns)) (s : Writer) (hr : Writer.polls A { ws := { enc := { key := key } } } ps = some s) (hp : PollsFine ps) (c : Call) (hc : s.cur = none ∨ s.cur = some c)
    (hsm : ∀ buf, c = .write buf → buf.length + 1040 < 2 ^ 32) (f : Nat → List IoAns) (ha : ∀ i, TransportFine (f i) ∧ TransportReady (f i)) :
    ∃ n s', 0 < n ∧ s.polls A ((List.range n).map fun i => (c, f i)) = some s' ∧ s'.cur = none ∧ s'.failed = false := by
  obtain ⟨hf, hi⟩ := winv_of_polls hr hp
  obtain ⟨s1, h1⟩ := call_enabled (A := A) (as := f 0) hf hc
  obtain ⟨h2, h3⟩ := winv_poll hi (smallCall_iff.2 hsm) (fine_iff.2 (ha 0).1) h1
  by_cases h4 : s1.cur = none
  · exact ⟨1, s1, by omega, by simp [Writer.polls, h1], h4, h2⟩
  · obtain ⟨n, s', g1, g2, g3⟩ := call_ends hsm _ (f := fun i => f (i + 1)) rfl h3 h2 ((call_cur h1 h2).resolve_left h4) fun i => ha (i + 1)
    refine ⟨n + 1, s', by omega, ?_, g2, g3⟩
    rw [List.range_succ_eq_map, List.map_cons, List.map_map, Writer.polls, h1, Option.bind_some]
    exact g1

/-- **C59, `poll_read`.** Whatever buffers the read half is polled with and however the bytes arrive: the bytes put into the buffers are in a row the
beginning of the plaintexts. -/
theorem C59_read (A : Aead) (key : Bytes) (ms : List Bytes) (wire : Bytes) (hw : Packages A key 0 ms wire) (cs : List Chunk)
    (hcs : (cs.map Chunk.bytes).flatten <+: wire) (closed : Bool) (wants : List Nat) :
    readPolls A closed { dec := { key := key } } cs wants <+: ms.flatten := by
  obtain ⟨rest, hrest⟩ := hcs
  simpa using readPolls_prefix wants (rinv_start (cs := cs) hw hrest)

/-- **C59, everything is read.** If all the packages arrive then enough polls, with whatever buffers that are not empty, put all of the plaintexts into the buffers: as many
polls as there are pieces of the wire, packages and bytes together. -/
theorem C59_read_all (A : Aead) (key : Bytes) (ms : List Bytes) (wire : Bytes) (hw : Packages A key 0 ms wire) (cs : List Chunk)
    (hcs : (cs.map Chunk.bytes).flatten = wire) (closed : Bool) (wants : List Nat) (hpos : ∀ w ∈ wants, 0 < w)
    (hn : cs.length + ms.length + ms.flatten.length ≤ wants.length) :
    readPolls A closed { dec := { key := key } } cs wants = ms.flatten := by
  simpa using readPolls_all (closed := closed) wants (linv_start (cs := cs) hw hcs) hpos hn

/-- **C59, `read_exact`.** The same for the results of `read_exact`, which have the length that was asked for. -/
theorem C59_read_exact (A : Aead) (key : Bytes) (ms : List Bytes) (wire : Bytes) (hw : Packages A key 0 ms wire) (sc : Script)
    (hsc : sc.bytes <+: wire) (ns : List Nat) (bs : List Bytes)
    (h : readExacts A { rs := { dec := { key := key } }, script := sc } ns = some bs) :
    bs.flatten <+: ms.flatten ∧ bs.map List.length = ns := by
  obtain ⟨rest, hrest⟩ := hsc
  simpa using readExacts_prefix ns (rinv_start (cs := sc.chunks) hw hrest) h

/-- **C59, both ends.** What is read is the beginning of what was written. -/
theorem C59_stream (A : Aead) (key : Bytes) (ps : List (Call × List IoAns)) (s : Writer)
    (hr : Writer.polls A { ws := { enc := { key := key } } } ps = some s) (hp : PollsFine ps) (cs : List Chunk)
    (hcs : (cs.map Chunk.bytes).flatten <+: s.wire) (closed : Bool) (wants : List Nat) :
    readPolls A closed { dec := { key := key } } cs wants <+: s.accepted ++ (match s.cur with | some (.write buf) => buf | _ => []) := by
  obtain ⟨-, ms, rest, h1, h2⟩ := C59_written A key ps s hr hp
  exact (C59_read A key ms _ h1 cs (hcs.trans (List.prefix_append _ _)) closed wants).trans h2

/-- **C59, both ends, after a flush.** Once a flush has returned and its bytes have arrived, enough polls of the reader return everything that was written. -/
theorem C59_all (A : Aead) (key : Bytes) (ps : List (Call × List IoAns)) (s : Writer)
    (hr : Writer.polls A { ws := { enc := { key := key } } } ps = some s) (hp : PollsFine ps) (hfl : s.flushed = true) (hc : s.cur = none) (cs : List Chunk)
    (hcs : (cs.map Chunk.bytes).flatten = s.wire) (closed : Bool) :
    ∃ n, ∀ wants : List Nat, (∀ w ∈ wants, 0 < w) → n ≤ wants.length → readPolls A closed { dec := { key := key } } cs wants = s.accepted := by
  obtain ⟨ms, h1, h2⟩ := C59_flushed A key ps s hr hp hfl hc
  exact ⟨_, fun wants hw hn => h2 ▸ C59_read_all A key ms s.wire h1 cs hcs closed wants hw hn⟩

/-- Two writes, a flush in pieces, another write and flush: two packages of 3 bytes and of 1 byte. They are read in pieces of 2, 1 and 1 bytes. -/
def opsBytes : List (Call × List IoAns) :=
  [(.write [1], []), (.write [2, 3], []), (.flush, [.ready 1, .pending]), (.flush, [.ready 100]), (.flush, [.ready 7]), (.write [4], []),
   (.flush, [.ready 100, .ready 1])]

example : PollsFine opsBytes := by
  simp [PollsFine, opsBytes, TransportFine]

example : (Writer.polls toyAead { ws := { enc := { key := [5] } } } opsBytes).map (fun s => (s.accepted, s.flushed, s.cur)) =
    some ([1, 2, 3, 4], true, none) := by
  decide +kernel

example : (Writer.polls toyAead { ws := { enc := { key := [5] } } } opsBytes).map (fun s =>
      readExacts toyAead { rs := { dec := { key := [5] } }, script := { chunks := [.data 0 (s.wire.drop 1)], closed := true } } [2, 1, 1]) =
    some (some [[1, 2], [3], [4]]) := by
  decide +kernel

example : (Writer.polls toyAead { ws := { enc := { key := [5] } } } opsBytes).map (fun s =>
      readPolls toyAead true { dec := { key := [5] } } [.data 0 (s.wire.drop 1)] [2, 2, 1]) = some [1, 2, 3, 4] := by
  decide +kernel

/-- Before the second flush one byte of four is held back. -/
example : PollsFine (opsBytes.take 6) ∧ (Writer.polls toyAead { ws := { enc := { key := [5] } } } (opsBytes.take 6)).map (fun s => (s.cur, s.accepted, s.wire.length)) = some (none, [1, 2, 3, 4], 3 + 20) :=
  ⟨fun p h => (by simp [PollsFine, opsBytes, TransportFine] : PollsFine opsBytes) p (List.mem_of_mem_take h), by decide +kernel⟩

/-- After the first poll of the first flush this flush is under way, with most of its package still to be written; a transport that takes one byte per poll is a transport
as in `C59_finishes`. -/
example : PollsFine (opsBytes.take 3) ∧ (Writer.polls toyAead { ws := { enc := { key := [5] } } } (opsBytes.take 3)).map (fun s => (s.cur, s.wire.length, left s.ws)) =
      some (some .flush, 1, 23) ∧
    ∀ i : Nat, TransportFine ((fun _ => [IoAns.ready 1]) i) ∧ TransportReady ((fun _ => [IoAns.ready 1]) i) :=
  ⟨fun p h => (by simp [PollsFine, opsBytes, TransportFine] : PollsFine opsBytes) p (List.mem_of_mem_take h), by decide +kernel, fun _ => ⟨by simp [TransportFine], 0, [], rfl⟩⟩

/-- The reads that C59 leaves out: `read_u16`, `read_u32`, `read_u64` of tokio forget what a pending poll has put into their buffer. Two packages with the
plaintexts 1 2 3 4 5 and 6 7 8 9; after `read_u8` a `read_u32` finds 2 3 4 5, but after two more bytes a `read_u32` that has to wait for the second package
returns 6 7 8 9, and 4 5 are lost. -/
theorem C59_violated_read_u32 : ∃ (key wire : Bytes) (cs : List Chunk), Packages toyAead key 0 [[1, 2, 3, 4, 5], [6, 7, 8, 9]] wire ∧
    (cs.map Chunk.bytes).flatten = wire ∧
    ∃ r, (cryptSource toyAead).readExact 3 { rs := { dec := { key := key } }, script := { chunks := cs, closed := true } } = .ok ([1, 2, 3], r) ∧
      ∃ r', (cryptSource toyAead).readInt 4 r = .ok ([6, 7, 8, 9], r') := by
  let p0 := packageBytes (toyTag [5] (nonceFromNumber 0) [1, 2, 3, 4, 5] ++ [1, 2, 3, 4, 5])
  let p1 := packageBytes (toyTag [5] (nonceFromNumber 1) [6, 7, 8, 9] ++ [6, 7, 8, 9])
  refine ⟨[5], p0 ++ p1, [.data 0 (p0.drop 1), .pending, .data 0 (p1.drop 1)], ?_, by decide +kernel, ?_⟩
  · exact ⟨p0, p1, package_of_enc rfl (by decide +kernel), rfl, p1, [], package_of_enc rfl (by decide +kernel), (List.append_nil _).symm, rfl⟩
  · refine ⟨{ rs := { dec := { key := [5], count := 1 }, remaining := [4, 5] }, script := { chunks := [.pending, .data 0 (p1.drop 1)], closed := true } }, by decide +kernel,
      { rs := { dec := { key := [5], count := 2 } }, script := { chunks := [], closed := true } }, by decide +kernel⟩

end Bromine.Props
