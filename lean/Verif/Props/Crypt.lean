import Verif.Lemmas.CryptWire
import Verif.Props.Frame
/-
C37, C38, C39, C40: the encrypted connection.
-/
namespace Bromine.Props
open Bromine Bromine.Spec Bromine.CryptIO

/-! ### C37 -/

/-- The encryptor has used the nonces of the numbers 0, 1, 2, ... in this order. -/
def Counted (key : Bytes) (x : Encryptor) : Prop :=
  x.key = key ∧ x.count = UInt64.ofNat x.log.length ∧
  ∀ (i : Nat) (r : Encryption), x.log[i]? = some r → r.key = key ∧ r.nonce = nonceFromNumber (UInt64.ofNat i)

theorem counted_encrypt {A : Aead} {key : Bytes} {x : Encryptor} (h : Counted key x) (d : Bytes) : Counted key (x.encrypt A d).2 := by
  obtain ⟨h1, h2, h3⟩ := h
  have h0 : (x.encrypt A d).2 = { x with count := x.count + 1, log := x.log ++ [{ key := x.key, nonce := nonceFromNumber x.count, plain := d }] } := by
    unfold Encryptor.encrypt
    simp only
    split <;> rfl
  rw [h0]
  refine ⟨h1, by simp [h2], ?_⟩
  intro i r hr
  by_cases hi : i < x.log.length
  · rw [List.getElem?_append_left hi] at hr
    exact h3 i r hr
  · rw [List.getElem?_append_right (by omega)] at hr
    have hi' : i - x.log.length = 0 := by
      cases hk : i - x.log.length with
      | zero => rfl
      | succ k => simp [hk] at hr
    rw [hi'] at hr
    simp only [List.getElem?_cons_zero, Option.some.injEq] at hr
    subst hr
    have : i = x.log.length := by omega
    subst this
    exact ⟨h1, by simp [h2]⟩

theorem enc_pollFutWrite (ws : WriteStream) (rem : Bytes) (len : Nat) (as : List IoAns) : (pollFutWrite ws rem len as).ws.enc = ws.enc := by
  unfold pollFutWrite; split <;> rfl

theorem enc_pollFutFlush (ws : WriteStream) (as : List IoAns) : (pollFutFlush ws as).ws.enc = ws.enc := by
  unfold pollFutFlush; split <;> rfl

theorem enc_pollFlushWrite (ws : WriteStream) (rem : Bytes) (as : List IoAns) : (pollFlushWrite ws rem as).ws.enc = ws.enc := by
  unfold pollFlushWrite
  split
  · exact enc_pollFutFlush ws _
  · rfl
  · rfl

theorem enc_pollFlush (A : Aead) (ws : WriteStream) (as : List IoAns) :
    (ws.pollFlush A as).ws.enc = ws.enc ∨ ∃ d, (ws.pollFlush A as).ws.enc = (ws.enc.encrypt A d).2 := by
  unfold WriteStream.pollFlush
  split
  · exact Or.inl (enc_pollFlushWrite _ _ _)
  · exact Or.inl (enc_pollFutFlush _ _)
  · simp only
    split
    · split
      · split
        · rename_i h
          rw [enc_pollFlushWrite]
          exact Or.inr ⟨_, by rw [h]⟩
        · rename_i h
          exact Or.inr ⟨_, by rw [h]⟩
      · exact Or.inl (by rw [enc_pollFutFlush])
    · exact Or.inl rfl

theorem enc_pollWrite (A : Aead) (ws : WriteStream) (buf : Bytes) (as : List IoAns) :
    (ws.pollWrite A buf as).ws.enc = ws.enc ∨ ∃ d, (ws.pollWrite A buf as).ws.enc = (ws.enc.encrypt A d).2 := by
  unfold WriteStream.pollWrite
  split
  · exact Or.inl (enc_pollFutWrite _ _ _ _)
  · simp only
    split
    · split
      · split
        · rename_i h
          rw [enc_pollFutWrite]
          exact Or.inr ⟨_, by rw [h]⟩
        · rename_i h
          exact Or.inr ⟨_, by rw [h]⟩
      · exact Or.inl rfl
    · exact Or.inl rfl

theorem enc_apply (A : Aead) (ws : WriteStream) (op : WOp) :
    (ws.apply A op).enc = ws.enc ∨ ∃ d, (ws.apply A op).enc = (ws.enc.encrypt A d).2 := by
  cases op with
  | write buf as => exact enc_pollWrite A ws buf as
  | flush as => exact enc_pollFlush A ws as
  | shutdown as =>
    simp only [WriteStream.apply, WriteStream.pollShutdown]
    split
    · split <;> exact Or.inl rfl
    · have := enc_pollFlush A ws as
      split
      · split
        · exact this
        · exact this
      · exact this

theorem counted_apply {A : Aead} {key : Bytes} {ws : WriteStream} (ops : List WOp) (h : Counted key ws.enc) :
    Counted key (ws.applyAll A ops).enc := by
  induction ops generalizing ws with
  | nil => exact h
  | cons op ops ih =>
    apply ih (ws := ws.apply A op)
    rcases enc_apply A ws op with h1 | ⟨d, h1⟩
    · rw [h1]; exact h
    · rw [h1]; exact counted_encrypt h d

theorem nonceFromNumber_eq (x : UInt64) : nonceFromNumber x = putU64 x ++ (putU64 x).take 4 := by
  unfold nonceFromNumber
  have hl : (putU64 x).length = 8 := length_putU64 x
  rw [List.take_append, List.take_of_length_le (by omega), hl]

theorem nonce_spec (i : Nat) : Nonce i (nonceFromNumber (UInt64.ofNat i)) := by
  refine ⟨putU64 (UInt64.ofNat i), ?_, nonceFromNumber_eq _⟩
  have := (bigEndian_put64 (x := UInt64.ofNat i) (bs := putU64 (UInt64.ofNat i))).2 rfl
  simpa using this

theorem nonceFromNumber_inj {x y : UInt64} (h : nonceFromNumber x = nonceFromNumber y) : x = y := by
  rw [nonceFromNumber_eq, nonceFromNumber_eq] at h
  have h1 := (List.append_inj h (by simp)).1
  have h2 := (bigEndian_put64 (x := x) (bs := putU64 x)).2 rfl
  rw [h1] at h2
  have h3 := (bigEndian_put64 (x := y) (bs := putU64 y)).2 rfl
  rw [bigEndian_iff] at h2 h3
  exact UInt64.toNat_inj.1 (h2.2.trans h3.2.symm)

/-- C37. Whatever polls a write half gets from whatever tasks, and however the transport answers: its encryptions are all
done under the session key, encryption number `i` (from 0) uses the nonce with number `i`, and the numbers of two
encryptions with the same nonce differ by a multiple of 2^64. -/
theorem C37_nonces (A : Aead) (key : Bytes) (ops : List WOp) :
    let log := (WriteStream.applyAll A { enc := { key := key } } ops).enc.log
    (∀ (i : Nat) (r : Encryption), log[i]? = some r → r.key = key ∧ Nonce i r.nonce) ∧
    (∀ (i j : Nat) (r q : Encryption), log[i]? = some r → log[j]? = some q → r.nonce = q.nonce → i % 2 ^ 64 = j % 2 ^ 64) := by
  have h := counted_apply (A := A) (key := key) (ws := { enc := { key := key } }) ops ⟨rfl, rfl, by simp⟩
  refine ⟨fun i r hr => ?_, fun i j r q hr hq heq => ?_⟩
  · obtain ⟨h1, h2⟩ := h.2.2 i r hr
    exact ⟨h1, h2 ▸ nonce_spec i⟩
  · rw [(h.2.2 i r hr).2, (h.2.2 j q hq).2] at heq
    have := congrArg UInt64.toNat (nonceFromNumber_inj heq)
    simpa using this

/-- C37: among the first 2^64 encryptions no nonce occurs twice. -/
theorem C37_distinct (A : Aead) (key : Bytes) (ops : List WOp)
    (hn : (WriteStream.applyAll A { enc := { key := key } } ops).enc.log.length ≤ 2 ^ 64) :
    ((WriteStream.applyAll A { enc := { key := key } } ops).enc.log.map Encryption.nonce).Nodup := by
  rw [List.Nodup, List.pairwise_iff_getElem]
  intro i j hi hj hij heq
  rw [List.length_map] at hi hj
  simp only [List.getElem_map] at heq
  have := (C37_nonces A key ops).2 i j _ _ (List.getElem?_eq_getElem hi) (List.getElem?_eq_getElem hj) heq
  omega

/-- C37 is about something: three messages, three different nonces. -/
example : ((WriteStream.applyAll toyAead { enc := { key := [7] } }
    [.write [1, 2] [], .flush [.ready 100, .ready 0], .write (List.replicate 1500 9) [.ready 5, .pending], .write (List.replicate 1500 9) [.ready 5000],
     .write [1] [], .flush [.pending], .flush [.ready 100, .ready 1]]).enc.log.map Encryption.nonce)
    = [[0,0,0,0,0,0,0,0,0,0,0,0], [0,0,0,0,0,0,0,1,0,0,0,0], [0,0,0,0,0,0,0,2,0,0,0,0]] := by decide +kernel

/-! ### C38 -/

/-- C38 does not hold: in every session, with every key, the first packages that the two sides send are encrypted under the
same key and the same nonce, whatever they say. `s` is a side right after the key exchange. -/
theorem C38_violated (A : Aead) (key m m' : Bytes) (hm : m ≠ []) (hm' : m' ≠ []) (hl : m.length < 1024) (hl' : m'.length < 1024)
    (as as' : List IoAns) (secret secret' : Bytes) :
    ∃ nonce,
      { key := key, nonce := nonce, plain := m } ∈
        (((CryptStream.new secret).updateKey key).write.applyAll A [.write m [], .flush as]).enc.log ∧
      { key := key, nonce := nonce, plain := m' } ∈
        (((CryptStream.new secret').updateKey key).write.applyAll A [.write m' [], .flush as']).enc.log := by
  refine ⟨nonceFromNumber 0, ?_⟩
  have key1 : ∀ (secret m : Bytes) (as : List IoAns), m ≠ [] → m.length < 1024 →
      { key := key, nonce := nonceFromNumber 0, plain := m } ∈
        (((CryptStream.new secret).updateKey key).write.applyAll A [.write m [], .flush as]).enc.log := by
    intro secret m as hm hl
    have h1 : ((CryptStream.new secret).updateKey key).write.pollWrite A m []
        = { poll := .ready (.ok m.length), ws := { enc := { key := key }, buffer := m }, rest := [] } := by
      simp [CryptStream.new, CryptStream.updateKey, WriteStream.pollWrite, WRITE_BUF_SIZE]
      omega
    have ht : m.take u32Max = m := List.take_of_length_le (by unfold u32Max; omega)
    have hp : 0 < m.length := List.length_pos_iff.2 hm
    simp only [WriteStream.applyAll, List.foldl_cons, List.foldl_nil, WriteStream.apply, h1]
    simp only [WriteStream.pollFlush, ht, Bool.and_self, if_true, hp]
    split
    · rename_i h
      rw [enc_pollFlushWrite]
      simp only [Encryptor.encrypt] at h
      split at h
      · simp only [Prod.mk.injEq] at h
        rw [← h.2]; simp
      · simp at h
    · rename_i h
      simp only [Encryptor.encrypt] at h
      split at h
      · simp at h
      · simp only [Prod.mk.injEq] at h
        rw [← h.2]; simp
  exact ⟨key1 _ _ _ hm hl, key1 _ _ _ hm' hl'⟩

/-- C38, exactly which messages of the two directions of a session share key and nonce: number `i` of the one and number `j` of the other (from 0) do
if and only if `i` and `j` are equal (modulo 2^64), whatever the two sides do and the transport answers. Within one direction see `C37_nonces`. -/
theorem C38_directions_iff (A : Aead) (key secret secret' : Bytes) (ops ops' : List WOp) (i j : Nat) (r q : Encryption)
    (hr : (((CryptStream.new secret).updateKey key).write.applyAll A ops).enc.log[i]? = some r)
    (hq : (((CryptStream.new secret').updateKey key).write.applyAll A ops').enc.log[j]? = some q) :
    (r.key = q.key ∧ r.nonce = q.nonce) ↔ i % 2 ^ 64 = j % 2 ^ 64 := by
  have h1 := counted_apply (A := A) (key := key) (ws := ((CryptStream.new secret).updateKey key).write) ops ⟨rfl, rfl, by simp [CryptStream.new, CryptStream.updateKey]⟩
  have h2 := counted_apply (A := A) (key := key) (ws := ((CryptStream.new secret').updateKey key).write) ops' ⟨rfl, rfl, by simp [CryptStream.new, CryptStream.updateKey]⟩
  obtain ⟨k1, n1⟩ := h1.2.2 i r hr
  obtain ⟨k2, n2⟩ := h2.2.2 j q hq
  rw [k1, k2, n1, n2]
  constructor
  · rintro ⟨-, heq⟩
    have := congrArg UInt64.toNat (nonceFromNumber_inj heq)
    simpa using this
  · intro h
    refine ⟨rfl, congrArg nonceFromNumber (UInt64.toNat_inj.1 ?_)⟩
    simpa using h

/-- Two messages in one direction, one in the other: the first ones share the nonce. -/
example : ((((CryptStream.new [1]).updateKey [7]).write.applyAll toyAead [.write [1, 2] [], .flush [.ready 100, .ready 0]]).enc.log.map fun r => (r.nonce, r.plain))
      = [(List.replicate 12 0, [1, 2])] ∧
    ((((CryptStream.new [2]).updateKey [7]).write.applyAll toyAead
      [.write [3] [], .flush [.ready 100, .ready 0], .write [4] [], .flush [.ready 100, .ready 0]]).enc.log.map fun r => (r.nonce, r.plain))
      = [(List.replicate 12 0, [3]), ([0, 0, 0, 0, 0, 0, 0, 1, 0, 0, 0, 0], [4])] := by
  constructor <;> decide +kernel

/-- The hypotheses of `C38_violated` can be met. -/
example : ([1, 2] : Bytes) ≠ [] ∧ ([1, 2] : Bytes).length < 1024 := by decide

/-! ### C39 -/

/-- C39: a package is read back unchanged, nothing of what follows is consumed, however the transport cuts the bytes, if
the ciphertext is shorter than 2^32 bytes. -/
theorem C39_roundtrip (c rest : Bytes) (hc : c.length < 2 ^ 32) (s : Script) (hs : s.bytes = packageBytes c ++ rest) :
    ∃ s', readPackage scriptSource s = .ok (c, s') ∧ s'.bytes = rest ∧ s'.closed = s.closed := by
  have hv : beVal (putU32 (UInt32.ofNat c.length)) = c.length := by
    unfold putU32
    rw [beVal_beBytes, toNat32 hc]
    exact Nat.mod_eq_of_lt hc
  have key : ∀ n a b (s : Script), s.bytes = a ++ b → a.length = n →
      ∃ s', scriptSource.readExact n s = .ok (a, s') ∧ s'.bytes = b ∧ s'.closed = s.closed := by
    intro n a b s hs ha
    have h := script_sim.exact n s
    simp only [flagSource, hs, idealRead, List.length_append, ha] at h
    rw [if_pos (by omega)] at h
    simp only [Outcome.map_ok, List.take_append_of_le_length (Nat.le_of_eq ha.symm), List.take_of_length_le (Nat.le_of_eq ha),
      List.drop_append_of_le_length (Nat.le_of_eq ha.symm), List.drop_of_length_le (Nat.le_of_eq ha), List.nil_append] at h
    cases hx : scriptSource.readExact n s with
    | ok p =>
      rw [hx] at h
      simp only [Outcome.map_ok, Outcome.ok.injEq, Prod.mk.injEq] at h
      refine ⟨p.2, ?_, h.2.1, h.2.2⟩
      rw [← h.1]
    | err e => rw [hx] at h; cases h
    | panic => rw [hx] at h; cases h
    | hang => rw [hx] at h; cases h
  unfold readPackage
  obtain ⟨s1, h1, h2, h3⟩ := key 4 (putU32 (UInt32.ofNat c.length)) (c ++ rest) s (by rw [hs, packageBytes]; simp) (length_putU32 _)
  have h1 : scriptSource.readInt 4 s = .ok (putU32 (UInt32.ofNat c.length), s1) := h1
  obtain ⟨s2, h4, h5, h6⟩ := key c.length c rest s1 h2 rfl
  refine ⟨s2, ?_, h5, h6.trans h3⟩
  rw [h1]
  simp only [Outcome.bind_ok, hv, h4]

example : ∃ s', readPackage scriptSource { chunks := [.data 0 [0, 0], .pending, .data 2 [9, 8], .data 5 []], closed := false } = .ok ([9, 8], s') ∧
    s'.bytes = [5] ∧ s'.closed = false :=
  C39_roundtrip [9, 8] [5] (by decide) _ (by decide)

/-- C39: the length prefix of a package is right exactly for ciphertexts shorter than 2^32 bytes. -/
theorem C39_prefix_iff (c : Bytes) : (∃ lb, BigEndian 4 c.length lb ∧ packageBytes c = lb ++ c) ↔ c.length < 2 ^ 32 := by
  constructor
  · rintro ⟨lb, h1, -⟩
    have := bigEndian_lt h1
    omega
  · intro h
    refine ⟨putU32 (UInt32.ofNat c.length), ?_, rfl⟩
    rw [bigEndian_iff]
    refine ⟨length_putU32 _, ?_⟩
    unfold putU32
    rw [beVal_beBytes, toNat32 h]
    exact (Nat.mod_eq_of_lt h).symm

end Bromine.Props
