import Verif.Props.Crypt
/-
C39 (the boundary), C40, C43: events over an encrypted connection.
-/
namespace Bromine.Props
open Bromine Bromine.Spec Bromine.CryptIO Bromine.CryptWire

theorem intoBytes_frame (e : Event) : e.intoBytes = .ok (Wire.frame e) := rfl

theorem length_frame (e : Event) : (Wire.frame e).length = frameSize e := by
  simp [Wire.frame, Event.intoBytes, frameSize, intoBytes_header_length, headerSize]
  omega

theorem sized_of_small {e : Event} (h : Small e) : Sized e := by
  refine ⟨?_, by rw [length_frame]; exact h.2⟩
  rw [length_frame]; unfold frameSize; omega

theorem frame_layout {e : Event} (h : Small e) : FrameLayout e [0, 9, 0] [] (Wire.frame e) := by
  obtain ⟨bs, h1, h2⟩ := intoBytes_frameLayout h.1 (show Allocatable e by have := h.2; unfold frameSize at this; unfold Allocatable; omega)
  rw [intoBytes_frame] at h1
  injection h1 with h1
  rw [h1]; exact h2

theorem package_pk {A : Aead} {key : Bytes} {i : Nat} {e : Event} (h : Small e) :
    Package A key i (Wire.frame e) (pk A key i e) ∧ complete (pk A key i e) = true ∧
    A.dec key (nonceFromNumber (UInt64.ofNat i)) ((pk A key i e).drop 4) = some (Wire.frame e) := by
  obtain ⟨c, hc⟩ := enc_sized (A := A) (sized_of_small h) key i
  have hl := A.len _ _ _ _ hc
  have hlt : c.length < 2 ^ 32 := by rw [hl, length_frame]; exact h.2
  obtain ⟨lb, h1, h2⟩ := (C39_prefix_iff c).2 hlt
  simp only [pk, hc, Option.getD_some]
  exact ⟨⟨_, c, lb, nonce_spec i, hc, h1, h2⟩, complete_package hlt, by rw [drop_package, A.dec_iff]; exact hc⟩

theorem sealed_pkgs {A : Aead} {key : Bytes} (es : List Event) (i : Nat) (h : ∀ e ∈ es, Small e) : Sealed A key i es (pkgs A key i es) := by
  induction es generalizing i with
  | nil => rfl
  | cons e es ih =>
    exact ⟨_, _, _, frame_layout (h e (by simp)), (package_pk (h e (by simp))).1, rfl, ih (i + 1) fun e' he' => h e' (by simp [he'])⟩

theorem fromBytes_frame (checks : Bool) {e : Event} (h : Small e) : Event.fromBytes checks (Wire.frame e) = .ok (e, []) := by
  obtain ⟨bs, h1, h2⟩ := C01_roundtrip e h.1 (show Allocatable e by have := h.2; unfold frameSize at this; unfold Allocatable; omega)
  rw [intoBytes_frame] at h1
  injection h1 with h1
  subst h1
  simpa using h2 checks []

/-- Reading packages, then part of a package. -/
theorem readLoop_pkgs {A : Aead} {key : Bytes} {checks closed : Bool} (es : List Event) (h : ∀ e ∈ es, Small e) (i fuel : Nat) (hf : es.length < fuel)
    (cs : List Chunk) (cut : Bytes) (hc : Incomplete cut) (hcs : flat cs = pkgs A key i es ++ cut) :
    readLoop (cryptSource A) checks fuel (idle { key := key, count := UInt64.ofNat i } cs closed)
      = (es, if closed then .err (.io .unexpectedEof) else .hang) := by
  induction es generalizing i fuel cs with
  | nil =>
    obtain ⟨n, rfl⟩ := Nat.exists_eq_succ_of_ne_zero (by omega : fuel ≠ 0)
    simp only [pkgs, List.nil_append] at hcs
    unfold readLoop
    rw [read_cut (by rw [hcs]; exact hc)]
    cases closed <;> rfl
  | cons e es ih =>
    obtain ⟨n, rfl⟩ := Nat.exists_eq_succ_of_ne_zero (by omega : fuel ≠ 0)
    simp only [List.length_cons] at hf
    have hsm := h e (by simp)
    obtain ⟨-, h2, h3⟩ := package_pk (A := A) (key := key) (i := i) hsm
    simp only [pkgs, List.append_assoc] at hcs
    have hne : Wire.frame e ≠ [] := List.length_pos_iff.1 (sized_of_small hsm).1
    obtain ⟨cs', h4, h5⟩ := read_sealed (A := A) (d := { key := key, count := UInt64.ofNat i }) (closed := closed) (checks := checks) h2 h3
      (fromBytes_frame checks hsm) hne hcs
    rw [readLoop_step n h5]
    simp only [ofNat_succ]
    rw [ih (fun e' he' => h e' (by simp [he'])) (i + 1) n (by omega) cs' h4]

/-- C40, the wire. Any number of tasks emit events on one encrypted connection, in any schedule, with any partial writes, pending
answers and sizes below 4 GiB; as long as no emit that holds the connection is dropped or fails, what is on the wire
is the sequence of the packages of the events in the order in which their emits got the connection, the last one
possibly not complete. If nobody holds the connection, all are complete. Every emit that has returned `Ok` is among them. -/
theorem C40_wire (A : Aead) (key : Bytes) {log : List Encryption} (ops : List CryptWire.Op) (s : CryptWire.State) (hr : CryptWire.run A (CryptWire.init key log) ops = some s)
    (hb : s.broken = false) (hs : ∀ t e, (t, e) ∈ s.log → Small e) :
    (∃ all rest, Sealed A key 0 (s.log.map Prod.snd) all ∧ all = s.wire ++ rest ∧ (s.lock = none → rest = []) ∧
      (∀ t, s.lock = some t → ∃ lg e done, s.log = lg ++ [(t, e)] ∧ Sealed A key 0 (lg.map Prod.snd) done ∧ ∃ more, s.wire = done ++ more)) ∧
    (s.log.map Prod.fst).Nodup ∧
    (∀ t e, s.tasks t = some (.done e) → (t, e) ∈ s.log ∧ s.lock ≠ some t) := by
  have h := CryptWire.inv_run (CryptWire.inv_init A key log) hr
  have hsz : ∀ x ∈ s.log, Sized x.2 := fun x hx => sized_of_small (hs x.1 x.2 hx)
  have hsm : ∀ e ∈ s.log.map Prod.snd, Small e := by
    intro e he
    obtain ⟨x, hx, rfl⟩ := List.mem_map.1 he
    exact hs x.1 x.2 hx
  refine ⟨?_, h.nodup, fun t e ht => ⟨h.logged t e (Or.inl ht), ?_⟩⟩
  · cases hl : s.lock with
    | none =>
      obtain ⟨x, -, -, hw⟩ := h.rest hb hsz hl
      exact ⟨pkgs A key 0 (s.log.map Prod.snd), [], sealed_pkgs _ _ hsm, by rw [hw]; simp, by simp, by simp⟩
    | some t =>
      obtain ⟨lg, e, hlg, hp⟩ := h.phase hb hsz t hl
      have hlgm : s.log.map Prod.snd = lg.map Prod.snd ++ [e] := by rw [hlg]; simp
      have hsm' : ∀ e ∈ lg.map Prod.snd, Small e := fun e' he' => hsm e' (by rw [hlgm]; simp [he'])
      have key2 : ∃ rest more, pkgs A key 0 (lg.map Prod.snd ++ [e]) = s.wire ++ rest ∧ s.wire = pkgs A key 0 (lg.map Prod.snd) ++ more := by
        obtain ⟨rem, w, g1, g2⟩ : ∃ rem, Cur A key (lg.map Prod.snd) e s.wire rem := by
          rcases hp with ⟨-, x, -, -, hw⟩ | ⟨-, x, rem, -, -, hw⟩ | ⟨-, x, f, -, -, hw⟩
          · exact ⟨_, Cur.start hw⟩
          · exact ⟨_, hw⟩
          · exact ⟨_, hw⟩
        exact ⟨rem, w, by rw [pkgs_snoc, Nat.zero_add, ← g2, g1]; simp, g1⟩
      obtain ⟨rest, more, k1, k2⟩ := key2
      exact ⟨_, rest, sealed_pkgs _ _ hsm, by rw [hlgm, k1], by simp,
        fun t' ht' => by
          injection ht' with ht'; subst ht'
          exact ⟨lg, e, _, hlg, sealed_pkgs _ _ hsm', more, k2⟩⟩
  · intro hl
    obtain ⟨lg, e', -, hp⟩ := h.phase hb hsz t hl
    exact hp.holds.not_other.2.2.1 _ ht

theorem incomplete_nil : Incomplete [] := by
  intro p rest h
  simp at h
  simp [h.1, complete]

/-- C40, the peer. Whatever the schedule of the emitters and however the transport cuts the bytes: the peer, with the same
session key, reads exactly the events in the order in which their emits got the connection (without the last one, if its
package is not complete yet), and then waits or sees the end of the stream. -/
theorem C40_peer_reads (A : Aead) (key : Bytes) {log : List Encryption} (ops : List CryptWire.Op) (s : CryptWire.State)
    (hr : CryptWire.run A (CryptWire.init key log) ops = some s) (hb : s.broken = false) (hs : ∀ t e, (t, e) ∈ s.log → Small e)
    (checks : Bool) (sc : Script) (hsc : sc.bytes = s.wire) (fuel : Nat) (hf : s.log.length < fuel) :
    ∃ es, readLoop (cryptSource A) checks fuel { rs := { dec := { key := key } }, script := sc }
        = (es, if sc.closed then .err (.io .unexpectedEof) else .hang) ∧
      (s.lock = none → es = s.log.map Prod.snd) ∧
      (∀ t, s.lock = some t → es = s.log.dropLast.map Prod.snd ∨ es = s.log.map Prod.snd) := by
  have h := CryptWire.inv_run (CryptWire.inv_init A key log) hr
  have hsz : ∀ x ∈ s.log, Sized x.2 := fun x hx => sized_of_small (hs x.1 x.2 hx)
  have hsm : ∀ e ∈ s.log.map Prod.snd, Small e := by
    intro e he
    obtain ⟨x, hx, rfl⟩ := List.mem_map.1 he
    exact hs x.1 x.2 hx
  obtain ⟨cs, closed⟩ := sc
  have hsc : flat cs = s.wire := hsc
  cases hl : s.lock with
  | none =>
    obtain ⟨x, -, -, hw⟩ := h.rest hb hsz hl
    refine ⟨_, readLoop_pkgs (closed := closed) (s.log.map Prod.snd) hsm 0 fuel (by simpa using hf) cs [] incomplete_nil (by rw [hsc, hw]; simp),
      by simp, by simp⟩
  | some t =>
    obtain ⟨lg, e, hlg, hp⟩ := h.phase hb hsz t hl
    have hlgm : s.log.map Prod.snd = lg.map Prod.snd ++ [e] := by rw [hlg]; simp
    have hdl : s.log.dropLast.map Prod.snd = lg.map Prod.snd := by rw [hlg]; simp
    have hsm' : ∀ e ∈ lg.map Prod.snd, Small e := fun e' he' => hsm e' (by rw [hlgm]; simp [he'])
    obtain ⟨rem, w, g1, g2⟩ : ∃ rem, Cur A key (lg.map Prod.snd) e s.wire rem := by
      rcases hp with ⟨-, x, -, -, hw⟩ | ⟨-, x, rem, -, -, hw⟩ | ⟨-, x, f, -, -, hw⟩
      · exact ⟨_, Cur.start hw⟩
      · exact ⟨_, hw⟩
      · exact ⟨_, hw⟩
    have hse : Small e := hsm e (by rw [hlgm]; simp)
    by_cases hrem : rem = []
    · subst hrem
      refine ⟨_, readLoop_pkgs (closed := closed) (s.log.map Prod.snd) hsm 0 fuel (by simpa using hf) cs [] incomplete_nil ?_,
        by simp, fun _ _ => Or.inr rfl⟩
      rw [hsc, hlgm, Cur.all ⟨w, g1, g2⟩]; simp
    · have hlen : lg.length < fuel := by
        have := congrArg List.length hlg
        simp at this; omega
      exact ⟨_, readLoop_pkgs (closed := closed) (lg.map Prod.snd) hsm' 0 fuel (by simpa using hlen) cs w
        (incomplete_of_cut (package_pk hse).2.1 g2.symm hrem) (by rw [hsc, g1]), by simp, fun _ _ => Or.inl hdl.symm⟩

/-- C40: an emit ends in another way than `Ok` only if it is dropped or the transport reports an error (or accepts nothing). In
particular it does not panic. -/
theorem C40_fails_only_with_transport (A : Aead) (key : Bytes) {log : List Encryption} (ops : List CryptWire.Op) (s s' : CryptWire.State)
    (hr : CryptWire.run A (CryptWire.init key log) ops = some s) (hb : s.broken = false) (hs : ∀ t e, (t, e) ∈ s.log → Small e)
    (t : Nat) (as : List IoAns) (hst : CryptWire.step A s (.poll t as) = some s') (hg : ∃ e, s'.tasks t = some (.gone e)) :
    (∃ er, IoAns.fail er ∈ as) ∨ IoAns.ready 0 ∈ as := by
  have h := CryptWire.inv_run (CryptWire.inv_init A key log) hr
  have hsz : ∀ x ∈ s.log, Sized x.2 := fun x hx => sized_of_small (hs x.1 x.2 hx)
  obtain ⟨e, hh, -⟩ := poll_shape hst
  obtain ⟨lg, e', hlg, hp⟩ := h.phase hb hsz t (h.holder t e hh)
  rcases (poll_good (hsz (t, e') (by rw [hlg]; simp)) hp hst).2.2 with ⟨_, _, g⟩ | ⟨_, _, g, _⟩ | ⟨_, _, _, g⟩
  · obtain ⟨e2, hg⟩ := hg
    exact absurd hg (g.holds.not_other.2.2.2 _)
  · obtain ⟨e2, hg⟩ := hg
    rw [hg] at g; cases g
  · exact g

theorem pollWriteAll_enough (rem : Bytes) (n : Nat) (hn : 0 < n) (h : rem.length ≤ n) :
    ∃ as', pollWriteAll rem [.ready n, .ready n] = (some (.ok ()), rem, [], as') ∧ (as' = [.ready n] ∨ as' = [.ready n, .ready n]) := by
  cases rem with
  | nil => exact ⟨_, by simp [pollWriteAll], Or.inr rfl⟩
  | cons b bs =>
    obtain ⟨m, rfl⟩ : ∃ m, n = m + 1 := ⟨n - 1, by omega⟩
    refine ⟨[.ready (m + 1)], ?_, Or.inl rfl⟩
    rw [pollWriteAll]
    have hd : (b :: bs).drop (m + 1) = [] := List.drop_of_length_le h
    have ht : (b :: bs).take (m + 1) = b :: bs := List.take_of_length_le h
    rw [hd, ht]
    simp [pollWriteAll]

/-- C40: an emit that holds the connection returns `Ok` as soon as the transport takes the bytes; it never waits for
anything else. -/
theorem C40_progress (A : Aead) (key : Bytes) {log : List Encryption} (ops : List CryptWire.Op) (s : CryptWire.State)
    (hr : CryptWire.run A (CryptWire.init key log) ops = some s) (hb : s.broken = false) (hs : ∀ t e, (t, e) ∈ s.log → Small e)
    (t : Nat) (ht : s.lock = some t) :
    ∃ s' e, CryptWire.step A s (.poll t [.ready (2 ^ 33), .ready (2 ^ 33)]) = some s' ∧ s'.tasks t = some (.done e) ∧ s'.lock = none ∧
      s'.broken = false := by
  have h := CryptWire.inv_run (CryptWire.inv_init A key log) hr
  have hsz : ∀ x ∈ s.log, Sized x.2 := fun x hx => sized_of_small (hs x.1 x.2 hx)
  obtain ⟨lg, e, hlg, hp⟩ := h.phase hb hsz t ht
  have hse : Small e := hs t e (by rw [hlg]; simp)
  have hex : ∃ s', CryptWire.step A s (.poll t [.ready (2 ^ 33), .ready (2 ^ 33)]) = some s' := by
    rcases hp.holds with h1 | h1 <;> simp [CryptWire.step, h1]
  obtain ⟨s', hs'⟩ := hex
  have hgood := poll_good (sized_of_small hse) hp hs'
  rcases hgood.2.2 with ⟨_, _, g⟩ | ⟨g1, g2, g3, _⟩ | ⟨_, _, _, g⟩
  · exfalso
    -- the package on its way fits
    have hpk : (pk A key (lg.map Prod.snd).length e).length ≤ 2 ^ 33 := by
      obtain ⟨c, hc⟩ := enc_sized (A := A) (sized_of_small hse) key (lg.map Prod.snd).length
      have hl := A.len _ _ _ _ hc
      have := hse.2
      rw [← length_frame] at this
      simp only [pk, hc, Option.getD_some, packageBytes, List.length_append, length_putU32]
      omega
    have hff : ∀ (ws : WriteStream) (as' : List IoAns), (as' = [.ready (2 ^ 33)] ∨ as' = [.ready (2 ^ 33), .ready (2 ^ 33)]) →
        (pollFutFlush ws as').poll = .ready (.ok ()) := by
      rintro ws as' (rfl | rfl) <;> rfl
    have hfw : ∀ (ws : WriteStream) (rem : Bytes) , rem.length ≤ 2 ^ 33 →
        (pollFlushWrite ws rem [.ready (2 ^ 33), .ready (2 ^ 33)]).poll = .ready (.ok ()) := by
      intro ws rem hrem
      obtain ⟨as', h1, h2⟩ := pollWriteAll_enough rem (2 ^ 33) (by omega) hrem
      simp only [pollFlushWrite, h1]
      exact hff ws as' h2
    have hfl : ∀ (ws : WriteStream) wire as', (ws.pollFlush A as').poll = .ready (.ok ()) →
        (pollFlushStage A s t e ws wire as').tasks t = some (.done e) := by
      intro ws wire as' hq
      simp only [pollFlushStage, hq]
      simp [Wire.set]
    have hstage : s'.tasks t = some (.done e) := by
      have hw : ∀ (x : Encryptor) (rem : Bytes) (f0 : Option Bytes), rem.length ≤ 2 ^ 33 →
          s.ws.pollWrite A (Wire.frame e) [.ready (2 ^ 33), .ready (2 ^ 33)]
            = pollFutWrite { enc := x, inner := false, cipher := false, futWrite := f0 } rem (Wire.frame e).length [.ready (2 ^ 33), .ready (2 ^ 33)] →
          (pollWriteStage A s t e [.ready (2 ^ 33), .ready (2 ^ 33)]).tasks t = some (.done e) := by
        intro x rem f0 hrem hq
        obtain ⟨as', h1, h2⟩ := pollWriteAll_enough rem (2 ^ 33) (by omega) hrem
        simp only [pollWriteStage, hq, pollFutWrite, h1, Except.map]
        apply hfl
        simp only [WriteStream.pollFlush, List.take_nil, List.length_nil, Nat.lt_irrefl, Bool.and_self, if_true, if_false]
        exact hff _ _ h2
      rcases hp with ⟨hst, x, hws, hx, hwr⟩ | ⟨hst, x, rem, hws, hx, w, hw1, hw2⟩ | ⟨hst, x, f, hws, hx, w, hw1, hw2⟩
      · simp only [CryptWire.step, hst, Option.some.injEq] at hs'
        subst hs'
        have htk : (Wire.frame e).take u32Max = Wire.frame e := List.take_of_length_le (by have := (sized_of_small hse).2; unfold u32Max; omega)
        have hdr : (Wire.frame e).drop u32Max = [] := List.drop_of_length_le (by have := (sized_of_small hse).2; unfold u32Max; omega)
        obtain ⟨c, x', h1, h2, h3⟩ := encrypt_at (A := A) hx (sized_of_small hse)
        by_cases hbuf : WRITE_BUF_SIZE ≤ (Wire.frame e).length
        · refine hw x' (packageBytes c) none (by rw [h3]; exact hpk) ?_
          simp only [WriteStream.pollWrite, hws, List.nil_append, hbuf, if_true, htk, hdr, Bool.and_self, h1]
        · simp only [pollWriteStage, WriteStream.pollWrite, hws, List.nil_append, hbuf, if_false, List.append_nil]
          apply hfl
          simp only [WriteStream.pollFlush, htk, hdr, Bool.and_self, if_true, (sized_of_small hse).1, h1]
          exact hfw _ _ (by rw [h3]; exact hpk)
      · simp only [CryptWire.step, hst, Option.some.injEq] at hs'
        subst hs'
        refine hw x rem (some rem) ?_ (by simp only [WriteStream.pollWrite, hws])
        have := congrArg List.length hw2
        simp only [List.length_append] at this
        omega
      · simp only [CryptWire.step, hst, Option.some.injEq] at hs'
        subst hs'
        apply hfl
        rw [hws]
        simp only [WriteStream.pollFlush]
        cases f with
        | writing rem =>
          refine hfw _ _ ?_
          have := congrArg List.length hw2
          simp only [List.length_append, remOf] at this
          omega
        | flushing => exact hff _ _ (Or.inr rfl)
    exact g.holds.not_other.2.2.1 _ hstage
  · exact ⟨s', e, hs', g3, g1, by rw [g2]; exact hb⟩
  · exfalso
    rcases g with ⟨er, g⟩ | g
    · simp at g
    · simp at g

end Bromine.Props
