import Verif.Props.CryptAttack
/-
C44, C45, C53: wake-ups, cancellation and errors on an encrypted connection.
-/
namespace Bromine.Props
open Bromine Bromine.Spec Bromine.CryptIO Bromine.CryptWire

theorem package_of_spec {A : Aead} {key : Bytes} {i : Nat} {m pkg : Bytes} (h : Package A key i m pkg) :
    complete pkg = true ∧ A.dec key (nonceFromNumber (UInt64.ofNat i)) (pkg.drop 4) = some m := by
  obtain ⟨nonce, c, lb, ⟨nb, h1, h2⟩, h3, h4, rfl⟩ := h
  have hlt : c.length < 2 ^ 32 := by
    have := bigEndian_lt h4
    omega
  have hlb : lb ++ c = packageBytes c := by
    unfold packageBytes
    congr 1
    rw [bigEndian_iff] at h4
    apply beVal_inj
    · rw [h4.1, length_putU32]
    · rw [← h4.2]
      unfold putU32
      rw [beVal_beBytes, toNat32 hlt]
      exact (Nat.mod_eq_of_lt hlt).symm
  have hno : nonce = nonceFromNumber (UInt64.ofNat i) := by
    rw [nonceFromNumber_eq, h2]
    have : nb = putU64 (UInt64.ofNat i) := by
      rw [← bigEndian_put64]
      simpa using h1
    rw [this]
  rw [hlb]
  exact ⟨complete_package hlt, by rw [drop_package, A.dec_iff, ← hno]; exact h3⟩

/-! ### C44 -/

/-- C44 does not hold, with every cipher: if the caller's buffer is larger than the plaintext of the next package, then a read that wants
to fill it (`read_exact`, or `read_u64` etc. if `int`) never returns, even if the rest of the data, or the end of the
stream, is already there. -/
theorem C44_violated (A : Aead) (key m pkg rest : Bytes) (hp : Package A key 0 m pkg) (n : Nat) (hn : m.length < n) (sc : Script)
    (hsc : sc.bytes = pkg ++ rest) :
    (cryptSource A).readExact n { rs := { dec := { key := key } }, script := sc } = .hang ∧
    (cryptSource A).readInt n { rs := { dec := { key := key } }, script := sc } = .hang := by
  obtain ⟨cs, closed⟩ := sc
  obtain ⟨h1, h2⟩ := package_of_spec hp
  have key1 : ∀ int, drive A int (cs.length + 2) n [] { rs := { dec := { key := key } }, script := { chunks := cs, closed := closed } } = .hang := by
    intro int
    obtain ⟨cs', -, h3⟩ := drive_package (A := A) (int := int) (closed := closed) (d := { key := key }) (n := n) (by omega) h1 hsc
    refine h3.trans ?_
    simp only [afterPackage]
    rw [show A.dec key (nonceFromNumber 0) (pkg.drop 4) = some m from h2]
    simp only
    rw [if_neg (by omega)]
  exact ⟨key1 false, key1 true⟩

/-- Two packages of 2 bytes are there, and the end of the stream; 4 bytes are wanted. -/
example : (cryptSource toyAead).readExact 4 { rs := { dec := { key := [5] } }, script := { closed := true, chunks := [
    .data 0 ([0, 0, 18] ++ toyTag [5] (nonceFromNumber 0) [1, 2] ++ [1, 2] ++ [0, 0, 0, 18] ++ toyTag [5] (nonceFromNumber 1) [3, 4] ++ [3, 4])] } } = .hang := by
  decide +kernel

/-- C44: a poll that returns `Pending` without a wake-up has just completed a package, has taken all of its plaintext,
and it was less than wanted. So reads are woken as long as no read crosses the end of a package. For reads that do see
`C44_lost_wakeup_iff` and `C44_violated`. -/
theorem C44_woken (A : Aead) (closed : Bool) (rs : ReadStream) (want : Nat) (cs : List Chunk)
    (h : (rs.pollRead A closed want cs).poll = .pending false) :
    (rs.pollRead A closed want cs).filled.length < want ∧ (rs.pollRead A closed want cs).rs.remaining = [] ∧
    (rs.pollRead A closed want cs).rs.fut = none ∧ (rs.pollRead A closed want cs).rs.dec.count = rs.dec.count + 1 := by
  have key : ∀ (rs : ReadStream) (want : Nat), (pollFutRead A closed rs want cs).poll = .pending false →
      (pollFutRead A closed rs want cs).filled.length < want ∧ (pollFutRead A closed rs want cs).rs.remaining = [] ∧
      (pollFutRead A closed rs want cs).rs.fut = none ∧ (pollFutRead A closed rs want cs).rs.dec.count = rs.dec.count + 1 := by
    intro rs want h
    unfold pollFutRead at h ⊢
    split at h
    · rename_i acc hfut
      split at h
      · simp at h
      · simp at h
      · rename_i c cs' hpk
        simp only [Decryptor.decrypt] at h ⊢
        cases hd : A.dec rs.dec.key (nonceFromNumber rs.dec.count) c with
        | none => simp [hd] at h
        | some p =>
          simp only [hd] at h ⊢
          split at h
          · cases h
          · rename_i hlt
            refine ⟨?_, ?_, by simp, by simp⟩
            · rw [List.length_take]; omega
            · exact List.drop_of_length_le (by omega)
    · cases h
  unfold ReadStream.pollRead at h ⊢
  split at h
  · exact key rs want h
  · simp only at h ⊢
    split at h
    · rename_i hlt
      obtain ⟨h1, h2, h3, h4⟩ := key _ _ h
      rw [if_pos hlt]
      refine ⟨?_, h2, h3, h4⟩
      simp only [List.length_append]
      omega
    · cases h

/-- C44, exactly when the wake-up is missing: the poll has not filled the buffer, and it is not in the middle of a package. (In the middle of one, the
transport wakes the task.) -/
theorem C44_lost_wakeup_iff (A : Aead) (closed : Bool) (rs : ReadStream) (want : Nat) (cs : List Chunk) :
    (rs.pollRead A closed want cs).poll = .pending false ↔
      (rs.pollRead A closed want cs).filled.length < want ∧ (rs.pollRead A closed want cs).rs.fut = none := by
  refine ⟨fun h => ⟨(C44_woken A closed rs want cs h).1, (C44_woken A closed rs want cs h).2.2.1⟩, fun ⟨h1, h2⟩ => ?_⟩
  have key : ∀ (rs : ReadStream) (want : Nat), (pollFutRead A closed rs want cs).filled.length < want → (pollFutRead A closed rs want cs).rs.fut = none →
      rs.fut ≠ none → (pollFutRead A closed rs want cs).poll = .pending false := by
    intro rs want h1 h2 h3
    unfold pollFutRead at h1 h2 ⊢
    split at h2
    · split at h2
      · simp at h2
      · simp at h2
      · rename_i acc hfut _ c cs' hpk
        simp only [hfut, hpk, Decryptor.decrypt] at h1 h2 ⊢
        cases hd : A.dec rs.dec.key (nonceFromNumber rs.dec.count) c with
        | none => simp [hd] at h2
        | some p =>
          simp only [hd] at h1 h2 ⊢
          rw [List.length_take] at h1
          rw [if_neg (by omega)]
    · exact absurd h2 h3
  unfold ReadStream.pollRead at h1 h2 ⊢
  split at h2
  · rename_i hf
    rw [hf] at h1
    exact key rs want h1 h2 (by rw [hf]; simp)
  · rename_i hf
    rw [hf] at h1
    simp only at h1 h2 ⊢
    split at h2
    · rename_i hlt
      rw [if_pos hlt] at h1 ⊢
      simp only [List.length_append] at h1
      exact key _ _ (by omega) h2 (by simp)
    · rename_i hlt
      rw [if_neg hlt] at h1
      simp only at h1
      exact absurd h1 hlt

/-- There is such a poll, and there are polls that are woken. -/
example : (ReadStream.pollRead toyAead true { dec := { key := [5] } } 4 [.data 0 ([0, 0, 18] ++ toyTag [5] (nonceFromNumber 0) [1, 2] ++ [1, 2])]).filled = [1, 2] := by
  decide +kernel

/-- C44 inside the library: if the bytes of the emitters of an encrypted connection (see C40) have arrived and the stream has ended, the
receive loop has returned; it is not waiting for a wake-up that does not come. -/
theorem C44_own_traffic (A : Aead) (key : Bytes) (ops : List CryptWire.Op) (s : CryptWire.State)
    (hr : CryptWire.run A (CryptWire.init key) ops = some s) (hb : s.broken = false) (hs : ∀ t e, (t, e) ∈ s.log → Small e)
    (checks : Bool) (cs : List Chunk) (hcs : (cs.map Chunk.bytes).flatten = s.wire) :
    (readLoop (cryptSource A) checks (s.log.length + 1) { rs := { dec := { key := key } }, script := { chunks := cs, closed := true } }).2
      = .err (.io .unexpectedEof) := by
  obtain ⟨es, h, -⟩ := C40_peer_reads A key ops s hr hb hs checks { chunks := cs, closed := true } hcs (s.log.length + 1) (by omega)
  rw [h]
  rfl

/-! ### C53 -/

/-- C53 does not hold: once reading has failed, with whatever error, every further read panics. -/
theorem C53_violated_read_again (A : Aead) (closed : Bool) (rs : ReadStream) (want : Nat) (cs : List Chunk) (e : IoErr)
    (h : (rs.pollRead A closed want cs).poll = .ready (.error e)) (closed' : Bool) (want' : Nat) (cs' : List Chunk) :
    ((rs.pollRead A closed want cs).rs.pollRead A closed' want' cs').poll = .panic := by
  have key : ∀ (rs : ReadStream) (want : Nat), (pollFutRead A closed rs want cs).poll = .ready (.error e) →
      (pollFutRead A closed rs want cs).rs.fut = some .finished := by
    intro rs want h
    unfold pollFutRead at h ⊢
    split at h
    · split at h
      · cases h
      · rfl
      · rename_i c cs' hpk
        simp only [Decryptor.decrypt] at h ⊢
        cases hd : A.dec rs.dec.key (nonceFromNumber rs.dec.count) c with
        | none => simp
        | some p =>
          simp only [hd] at h
          split at h <;> simp at h
    · cases h
  have hfin : (rs.pollRead A closed want cs).rs.fut = some .finished := by
    unfold ReadStream.pollRead at h ⊢
    split at h
    · exact key rs want h
    · simp only at h ⊢
      split at h
      · rename_i hlt
        rw [if_pos hlt]
        exact key _ _ h
      · simp at h
  generalize (rs.pollRead A closed want cs).rs = r at hfin ⊢
  simp only [ReadStream.pollRead, hfin, pollFutRead]

/-- The same for `read_exact` and `read_u32` etc. of tokio, and so for everything that reads from the connection: if a poll of the read half has failed, they panic. -/
theorem C53_violated_read_exact (A : Aead) (closed : Bool) (rs : ReadStream) (want : Nat) (cs : List Chunk) (e : IoErr)
    (h : (rs.pollRead A closed want cs).poll = .ready (.error e)) (sc : Script) (n : Nat) (hn : 0 < n) :
    (cryptSource A).readExact n { rs := (rs.pollRead A closed want cs).rs, script := sc } = .panic ∧
    (cryptSource A).readInt n { rs := (rs.pollRead A closed want cs).rs, script := sc } = .panic := by
  have hp := fun w cs' => C53_violated_read_again A closed rs want cs e h sc.closed w cs'
  obtain ⟨n, rfl⟩ : ∃ m, n = m + 1 := ⟨n - 1, by omega⟩
  constructor <;> simp only [cryptSource, drive, hp]

/-- It happens for example at the end of the stream. -/
example : ∃ e, (ReadStream.pollRead toyAead true { dec := { key := [5] } } 4 [.data 0 [0]]).poll = .ready (.error e) := ⟨.unexpectedEof, rfl⟩

/-- C53 does not hold: shutting down an encrypted connection never completes by itself. The poll that finishes the flush returns `Pending`
without having asked for a wake-up; and it has taken the transport, so every later write of 1024 bytes or flush panics. -/
theorem C53_violated_shutdown (A : Aead) (ws : WriteStream) (as : List IoAns) (hs : ws.futShutdown = false)
    (hf : (ws.pollFlush A as).poll = .ready (.ok ())) :
    (ws.pollShutdown A as).poll = .pending false ∧
    ∀ as', ((ws.pollShutdown A as).ws.pollFlush A as').poll = .panic := by
  have hff : ∀ (ws : WriteStream) (as : List IoAns), (pollFutFlush ws as).poll = .ready (.ok ()) →
      (pollFutFlush ws as).ws.inner = true ∧ (pollFutFlush ws as).ws.cipher = true ∧ (pollFutFlush ws as).ws.futFlush = none := by
    intro ws as h
    unfold pollFutFlush at h ⊢
    split at h <;> simp at h
    simp
  have hfw : ∀ (ws : WriteStream) (rem : Bytes) (as : List IoAns), (pollFlushWrite ws rem as).poll = .ready (.ok ()) →
      (pollFlushWrite ws rem as).ws.inner = true ∧ (pollFlushWrite ws rem as).ws.cipher = true ∧ (pollFlushWrite ws rem as).ws.futFlush = none := by
    intro ws rem as h
    unfold pollFlushWrite at h ⊢
    split at h
    · exact hff _ _ h
    · simp at h
    · simp at h
  have hinner : (ws.pollFlush A as).ws.inner = true ∧ (ws.pollFlush A as).ws.cipher = true ∧ (ws.pollFlush A as).ws.futFlush = none := by
    unfold WriteStream.pollFlush at hf ⊢
    split at hf
    · exact hfw _ _ _ hf
    · exact hff _ _ hf
    · simp only at hf ⊢
      split at hf
      · rename_i hic
        rw [if_pos hic]
        split at hf
        · rename_i hlt
          rw [if_pos hlt]
          split at hf
          · exact hfw _ _ _ hf
          · simp at hf
        · rename_i hlt
          rw [if_neg hlt]
          exact hff _ _ hf
      · cases hf
  obtain ⟨h1, h2, h3⟩ := hinner
  have hsd : ws.pollShutdown A as = { ws.pollFlush A as with poll := .pending false, ws := { (ws.pollFlush A as).ws with inner := false, futShutdown := true } } := by
    unfold WriteStream.pollShutdown
    rw [if_neg (by simp [hs])]
    simp only [hf, h1, if_true]
  rw [hsd]
  generalize ws.pollFlush A as = r at h1 h2 h3
  refine ⟨rfl, fun as' => ?_⟩
  simp [WriteStream.pollFlush, h3]

/-- C53, the rest of a shutdown. After the poll that finishes the flush, further polls of the shutdown do what the transport's shutdown does: they wait (now with a wake-up), end with its error, or
with `Ok`; then a further poll panics. Each asks the transport once. Meanwhile writes are still accepted, as long as less than 1024 bytes are in the buffer; nothing of them is ever sent. -/
theorem C53_shutdown_rest (A : Aead) (ws : WriteStream) (as : List IoAns) (hs : ws.futShutdown = false) (hw : ws.futWrite = none)
    (hf : (ws.pollFlush A as).poll = .ready (.ok ())) :
    let s1 := (ws.pollShutdown A as).ws
    (∀ as', (as' = [] ∨ as'.head? = some .pending) → (s1.pollShutdown A as').poll = .pending true ∧ (s1.pollShutdown A as').ws = s1 ∧ (s1.pollShutdown A as').wire = []) ∧
    (∀ e as', (s1.pollShutdown A (.fail e :: as')).poll = .ready (.error e)) ∧ (∀ n as', (s1.pollShutdown A (.ready n :: as')).poll = .ready (.ok ())) ∧
    (∀ as' as'' r, (s1.pollShutdown A as').poll = .ready r → ((s1.pollShutdown A as').ws.pollShutdown A as'').poll = .panic) ∧
    (∀ x as', (s1.pollShutdown A (x :: as')).rest = as' ∧ (s1.pollShutdown A (x :: as')).wire = []) ∧
    (∀ buf as', s1.buffer.length + buf.length < 1024 →
      (s1.pollWrite A buf as').poll = .ready (.ok buf.length) ∧ (s1.pollWrite A buf as').wire = [] ∧ ∀ as'', ((s1.pollWrite A buf as').ws.pollFlush A as'').poll = .panic) := by
  intro s1
  obtain ⟨h1, h2⟩ := C53_violated_shutdown A ws as hs hf
  change ∀ as', (s1.pollFlush A as').poll = .panic at h2
  have hfw : ∀ (ws : WriteStream) (as : List IoAns), (pollFutFlush ws as).ws.futWrite = ws.futWrite := by
    intro ws as; unfold pollFutFlush; split <;> rfl
  have hfl : ∀ (ws : WriteStream) (rem : Bytes) (as : List IoAns), (pollFlushWrite ws rem as).ws.futWrite = ws.futWrite := by
    intro ws rem as
    unfold pollFlushWrite
    split
    · exact hfw _ _
    · rfl
    · rfl
  have hws : (ws.pollFlush A as).ws.futWrite = none := by
    unfold WriteStream.pollFlush
    split
    · rw [hfl, hw]
    · rw [hfw, hw]
    · simp only
      split
      · split
        · split
          · rw [hfl]; exact hw
          · exact hw
        · rw [hfw]; exact hw
      · exact hw
  have hst : s1.futShutdown = true ∧ s1.futWrite = none := by
    have hx : ws.pollShutdown A as = (if (ws.pollFlush A as).ws.inner then
        { ws.pollFlush A as with poll := .pending false, ws := { (ws.pollFlush A as).ws with inner := false, futShutdown := true } }
        else { ws.pollFlush A as with poll := .panic }) := by
      unfold WriteStream.pollShutdown
      rw [if_neg (by simp [hs])]
      simp only [hf]
    rw [hx] at h1
    show (ws.pollShutdown A as).ws.futShutdown = true ∧ (ws.pollShutdown A as).ws.futWrite = none
    rw [hx]
    split at h1
    · rename_i hi; rw [if_pos hi]; exact ⟨rfl, hws⟩
    · cases h1
  obtain ⟨g1, g2⟩ := hst
  clear_value s1
  have hpan : ∀ (s : WriteStream) (as : List IoAns), s = { s1 with futShutdown := false } → (s.pollShutdown A as).poll = .panic := by
    intro s as hs
    have hp : (s.pollFlush A as).poll = .panic := by
      have := h2 as
      rw [hs]
      unfold WriteStream.pollFlush at this ⊢
      simp only at this ⊢
      split at this
      · rename_i rem hr
        exact absurd this (by
          unfold pollFlushWrite
          split
          · unfold pollFutFlush; split <;> simp
          · simp
          · simp)
      · exact absurd this (by unfold pollFutFlush; split <;> simp)
      · split at this
        · exact absurd this (by
            split
            · split
              · unfold pollFlushWrite
                split
                · unfold pollFutFlush; split <;> simp
                · simp
                · simp
              · simp
            · unfold pollFutFlush; split <;> simp)
        · rename_i h; simp only [h]; rfl
    unfold WriteStream.pollShutdown
    rw [if_neg (by simp [hs])]
    simp only [hp]
  refine ⟨?_, ?_, ?_, ?_, ?_, ?_⟩
  · rintro as' (rfl | h)
    · simp [WriteStream.pollShutdown, g1]
    · obtain ⟨t, rfl⟩ : ∃ t, as' = .pending :: t := by
        cases as' with
        | nil => cases h
        | cons a t => cases h; exact ⟨t, rfl⟩
      simp [WriteStream.pollShutdown, g1]
  · intro e as'; simp [WriteStream.pollShutdown, g1]
  · intro e as'; simp [WriteStream.pollShutdown, g1]
  · intro as' as'' r hr
    apply hpan
    unfold WriteStream.pollShutdown at hr ⊢
    rw [if_pos g1] at hr ⊢
    split at hr
    · cases hr
    · cases hr
    · rfl
    · rfl
  · intro x as'; cases x <;> simp [WriteStream.pollShutdown, g1]
  · intro buf as' hl
    have : ¬ WRITE_BUF_SIZE ≤ (s1.buffer ++ buf).length := by simp [WRITE_BUF_SIZE]; omega
    simp only [WriteStream.pollWrite, g2, this, if_false]
    refine ⟨trivial, trivial, fun as'' => ?_⟩
    have := h2 as''
    unfold WriteStream.pollFlush at this ⊢
    simp only at this ⊢
    split at this
    · exact absurd this (by
        unfold pollFlushWrite
        split
        · unfold pollFutFlush; split <;> simp
        · simp
        · simp)
    · exact absurd this (by unfold pollFutFlush; split <;> simp)
    · split at this
      · exact absurd this (by
          split
          · split
            · unfold pollFlushWrite
              split
              · unfold pollFutFlush; split <;> simp
              · simp
              · simp
            · simp
          · unfold pollFutFlush; split <;> simp)
      · rename_i h; simp only [h]; rfl

theorem pollFlush_pkg (A : Aead) (ws : WriteStream) (c : Bytes) (x : Encryptor) (hn : ws.futFlush = none) (hi : ws.inner = true) (hc : ws.cipher = true)
    (hb : 0 < (ws.buffer.take u32Max).length) (he : ws.enc.encrypt A (ws.buffer.take u32Max) = (.ok c, x)) (n m : Nat) (hl : (packageBytes c).length ≤ n) :
    (ws.pollFlush A [.ready n, .ready m]).poll = .ready (.ok ()) := by
  have hone := pollWriteAll_one (packageBytes c) n [.ready m] (packageBytes_ne_nil c) hl
  simp only [WriteStream.pollFlush, hn, hi, hc, Bool.and_self, if_true, hb, he, pollFlushWrite, hone, pollFutFlush]

example : (WriteStream.pollFlush toyAead { enc := { key := [1] }, buffer := [4, 5] } [.ready 100, .ready 1]).poll = .ready (.ok ()) :=
  pollFlush_pkg _ _ _ _ rfl rfl rfl (by decide) rfl 100 1 (by decide)

/-! ### C45 -/

theorem witness {σ : Type} {x : Option σ} {P : σ → Prop} (h : x.elim False P) : ∃ s, x = some s ∧ P s := by
  cases x with
  | none => exact h.elim
  | some s => exact ⟨s, rfl, h⟩

/-- C45: dropping an emit that is still waiting for the connection leaves the connection as it is; and, by C40, no write is
lost and nothing panics as long as only such emits are dropped. For an emit that holds the connection see `C45_wire_intact`, `C45_peer_reads`. -/
theorem C45_drop_waiting (A : Aead) (s s' : CryptWire.State) (t : Nat) (e : Event) (ht : s.tasks t = some (.waiting e))
    (hs : CryptWire.step A s (.drop t) = some s') :
    s'.ws = s.ws ∧ s'.wire = s.wire ∧ s'.lock = s.lock ∧ s'.broken = s.broken ∧ s'.log = s.log ∧ ∀ u, u ≠ t → s'.tasks u = s.tasks u := by
  simp only [CryptWire.step, ht, Option.some.injEq] at hs
  subst hs
  exact ⟨rfl, rfl, rfl, rfl, rfl, fun u hu => by simp [Wire.set, hu]⟩

example : ∃ s, CryptWire.run toyAead (CryptWire.init [1]) [.start 1 sampleEvent, .start 2 emptyEvent, .lock 2] = some s ∧
    s.tasks 1 = some (.waiting sampleEvent) := ⟨_, rfl, rfl⟩

/-- C45 does not hold, with every cipher: the emit of `e1` (1024 bytes or more) is dropped while the transport is pending. The next emit, of any
event `e2`, returns `Ok` when the rest of the package of `e1` has been written; `e2` itself is neither sent nor buffered. -/
theorem C45_violated_lost (A : Aead) (key : Bytes) (e1 e2 : Event) (h1 : Small e1) (hbig : 1024 ≤ frameSize e1) :
    ∃ s, CryptWire.run A (CryptWire.init key)
        [.start 1 e1, .start 2 e2, .lock 1, .poll 1 [.pending], .drop 1, .lock 2, .poll 2 [.ready (2 ^ 33), .ready 1]] = some s ∧
      s.tasks 2 = some (.done e2) ∧ s.ws.buffer = [] ∧ Package A key 0 (Wire.frame e1) s.wire := by
  have hb : WRITE_BUF_SIZE ≤ (Wire.frame e1).length := by rw [length_frame]; exact hbig
  have htk : (Wire.frame e1).take u32Max = Wire.frame e1 := List.take_of_length_le (by have := (sized_of_small h1).2; unfold u32Max; omega)
  have hdr : (Wire.frame e1).drop u32Max = [] := List.drop_of_length_le (by have := (sized_of_small h1).2; unfold u32Max; omega)
  obtain ⟨c, x', g1, g2, g3⟩ := encrypt_at (A := A) (key := key) (n := 0) (x := { key := key }) ⟨rfl, rfl⟩ (sized_of_small h1)
  have hpk := (package_pk (A := A) (key := key) (i := 0) h1).1
  rw [← g3] at hpk
  have hlen : (packageBytes c).length ≤ 2 ^ 33 := by
    simp only [Encryptor.encrypt] at g1
    split at g1
    · rename_i c' hc
      simp only [Prod.mk.injEq, Except.ok.injEq] at g1
      have hl := A.len _ _ _ _ hc
      have := (sized_of_small h1).2
      rw [← g1.1, length_packageBytes]
      omega
    · simp at g1
  have hpend : pollWriteAll (packageBytes c) [.pending] = (none, [], packageBytes c, []) := by
    cases hx : packageBytes c with
    | nil => exact absurd hx (packageBytes_ne_nil c)
    | cons b bs => simp [pollWriteAll]
  have hone := pollWriteAll_one (packageBytes c) (2 ^ 33) [.ready 1] (packageBytes_ne_nil c) hlen
  generalize 2 ^ 33 = N at hone ⊢
  have hw1 : WriteStream.pollWrite A { enc := { key := key } } (Wire.frame e1) [.pending]
      = { poll := .pending true, ws := { enc := x', inner := false, cipher := false, futWrite := some (packageBytes c) }, wire := [], rest := [] } := by
    simp only [WriteStream.pollWrite, List.nil_append, hb, if_true, htk, hdr, Bool.and_self, g1, pollFutWrite, hpend]
  have hw2 : WriteStream.pollWrite A { enc := x', inner := false, cipher := false, futWrite := some (packageBytes c) } (Wire.frame e2) [.ready N, .ready 1]
      = { poll := .ready (.ok (Wire.frame e2).length), ws := { enc := x' }, wire := packageBytes c, rest := [.ready 1] } := by
    simp only [WriteStream.pollWrite, pollFutWrite, hone, Except.map]
  have hf2 : WriteStream.pollFlush A { enc := x' } [.ready 1] = { poll := .ready (.ok ()), ws := { enc := x' } } := by
    simp [WriteStream.pollFlush, pollFutFlush]
  refine witness ?_
  simp only [CryptWire.run, CryptWire.step, CryptWire.init, Wire.set, Option.bind_some, if_true, CryptWire.pollWriteStage, hw1, hw2,
    Nat.reduceEqDiff, if_false, Option.elim_some, CryptWire.pollFlushStage, hf2, List.nil_append, List.append_nil]
  exact ⟨trivial, trivial, hpk⟩

example : Small longEvent ∧ 1024 ≤ frameSize longEvent := ⟨small_long, by decide +kernel⟩

/-- C45 does not hold, with every cipher: the emit of `e1` (less than 1024 bytes) is dropped while the transport is pending. The next
emit, of an event with less than 1024 bytes, returns `Ok` although its event stays in the buffer; if the event is longer, the write panics. -/
theorem C45_violated_dropped_flush (A : Aead) (key : Bytes) (e1 e2 : Event) (h1 : Small e1) (hsm : frameSize e1 < 1024) :
    ∃ s, CryptWire.run A (CryptWire.init key)
        [.start 1 e1, .start 2 e2, .lock 1, .poll 1 [.pending], .drop 1, .lock 2] = some s ∧
      (1024 ≤ frameSize e2 → ∀ as, (s.ws.pollWrite A (Wire.frame e2) as).poll = .panic) ∧
      (frameSize e2 < 1024 → ∃ s', CryptWire.step A s (.poll 2 [.ready (2 ^ 33), .ready 1]) = some s' ∧ s'.tasks 2 = some (.done e2) ∧
        s'.ws.buffer = Wire.frame e2 ∧ Package A key 0 (Wire.frame e1) s'.wire) := by
  have hb : ¬ WRITE_BUF_SIZE ≤ (Wire.frame e1).length := by rw [length_frame]; unfold WRITE_BUF_SIZE; omega
  have htk : (Wire.frame e1).take u32Max = Wire.frame e1 := List.take_of_length_le (by have := (sized_of_small h1).2; unfold u32Max; omega)
  have hdr : (Wire.frame e1).drop u32Max = [] := List.drop_of_length_le (by have := (sized_of_small h1).2; unfold u32Max; omega)
  obtain ⟨c, x', g1, g2, g3⟩ := encrypt_at (A := A) (key := key) (n := 0) (x := { key := key }) ⟨rfl, rfl⟩ (sized_of_small h1)
  have hpk := (package_pk (A := A) (key := key) (i := 0) h1).1
  rw [← g3] at hpk
  have hlen : (packageBytes c).length ≤ 2 ^ 33 := by
    simp only [Encryptor.encrypt] at g1
    split at g1
    · rename_i c' hc
      simp only [Prod.mk.injEq, Except.ok.injEq] at g1
      have hl := A.len _ _ _ _ hc
      have := (sized_of_small h1).2
      rw [← g1.1, length_packageBytes]
      omega
    · simp at g1
  have hpend : pollWriteAll (packageBytes c) [.pending] = (none, [], packageBytes c, []) := by
    cases hx : packageBytes c with
    | nil => exact absurd hx (packageBytes_ne_nil c)
    | cons b bs => simp [pollWriteAll]
  have hone := pollWriteAll_one (packageBytes c) (2 ^ 33) [.ready 1] (packageBytes_ne_nil c) hlen
  generalize 2 ^ 33 = N at hone ⊢
  have hw1 : WriteStream.pollWrite A { enc := { key := key } } (Wire.frame e1) [.pending]
      = { poll := .ready (.ok (Wire.frame e1).length), ws := { enc := { key := key }, buffer := Wire.frame e1 }, wire := [], rest := [.pending] } := by
    simp only [WriteStream.pollWrite, List.nil_append, hb, if_false]
  have hf1 : WriteStream.pollFlush A { enc := { key := key }, buffer := Wire.frame e1 } [.pending]
      = { poll := .pending true, ws := { enc := x', inner := false, cipher := false, futFlush := some (.writing (packageBytes c)) }, wire := [], rest := [] } := by
    simp only [WriteStream.pollFlush, htk, hdr, Bool.and_self, if_true, (sized_of_small h1).1, g1, pollFlushWrite, hpend]
  refine witness ?_
  simp only [CryptWire.run, CryptWire.step, CryptWire.init, Wire.set, Option.bind_some, if_true, CryptWire.pollWriteStage, hw1,
    Nat.reduceEqDiff, if_false, Option.elim_some, CryptWire.pollFlushStage, hf1]
  refine ⟨?_, ?_⟩
  · intro h2 as
    have hb2 : WRITE_BUF_SIZE ≤ (Wire.frame e2).length := by rw [length_frame]; exact h2
    simp [WriteStream.pollWrite, hb2]
  · intro h2
    have hb2 : ¬ WRITE_BUF_SIZE ≤ (Wire.frame e2).length := by rw [length_frame]; unfold WRITE_BUF_SIZE; omega
    refine witness ?_
    simp only [WriteStream.pollWrite, List.nil_append, hb2, if_false, List.append_nil, WriteStream.pollFlush, pollFlushWrite, hone, pollFutFlush]
    exact ⟨rfl, rfl, hpk⟩

example : Small sampleEvent ∧ frameSize sampleEvent < 1024 ∧ 1024 ≤ frameSize longEvent := ⟨small_sample, by decide, by decide +kernel⟩

end Bromine.Props
