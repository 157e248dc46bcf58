import Verif.Lemmas.CryptErrProgress
import Verif.Props.CryptBytes
/-
C75: what an encrypted connection does after write errors.
-/
namespace Bromine.Props
open Bromine Bromine.Spec Bromine.CryptIO Bromine.CryptBytes

/-- The buffers that are written are below 4 GiB by more than 1040 bytes. -/
def SmallBuffers (polls : List (Call × List IoAns)) : Prop := ∀ p ∈ polls, ∀ buf, p.1 = .write buf → buf.length + 1040 < 2 ^ 32

/-- **C75, writing.** Whatever the transport answers, errors included, if calls are not dropped: no call panics, also not after errors. Every byte of every write that was begun is
in exactly one package, or still in the buffer; of each package, numbered from 0 without gaps, a beginning is on the wire, and the packages of which something is missing are no more than the
calls that have returned an error (and one, while a call is going on). After a flush, `Ok` or not, nothing is left in the buffer: what a failed call has not written is lost. -/
theorem C75_written (A : Aead) (key : Bytes) (polls : List (Call × List IoAns)) (s : Caller)
    (hr : Caller.polls A { ws := { enc := { key := key } } } polls = some s) (hp : SmallBuffers polls) :
    s.panicked = false ∧
    ∃ packages : List (Bytes × Nat), TornPackages A key 0 packages s.wire ∧ (packages.map Prod.fst).flatten ++ s.ws.buffer = s.begun ∧
      packages.countP (fun p => !Whole p) ≤ s.returned.countP (fun r => r.2.isSome) + (if s.cur = none then 0 else 1) ∧
      (∀ e, s.cur = none → s.returned.getLast? = some (.flush, e) → s.ws.buffer = []) := by
  obtain ⟨h0, h⟩ := cinv_polls polls (cinv_init A key []) (fun p h => smallCall_iff.2 (hp p h)) hr
  refine ⟨h0, ?_⟩
  rcases h with ⟨hc, ps, x, b, h1, -, h3, -, h5, h6, h7⟩ | ⟨x, rem, ⟨ps, m, w0, w, h1, h2, h3, -, h5, h6⟩, h7⟩ | ⟨x, ⟨ps, h1, -, h3, h4⟩, h5, h6⟩
  · refine ⟨ps, h3, by rw [h1]; exact h5, ?_, fun e _ he => by rw [h1]; exact h7 e he⟩
    rw [if_pos hc]
    exact h6
  · have hcb : s.cur ≠ none ∧ s.ws.buffer = [] := by rcases h7 with ⟨buf, h7, h8⟩ | ⟨h7, h8⟩ <;> simp [h7, h8]
    refine ⟨ps ++ [(m, w.length)], by rw [h1]; exact torn_snoc h2 (by rw [Nat.zero_add]; exact h3), ?_, ?_, fun e hn => absurd hn hcb.1⟩
    · rw [hcb.2, List.append_nil]
      exact (flatP_snoc ps m w.length).trans h5
    · rw [if_neg hcb.1]
      exact Nat.le_trans (torn_snoc_le ps (m, w.length)) (Nat.succ_le_succ h6)
  · refine ⟨ps, h1, by rw [h6, List.append_nil]; exact h3, ?_, fun e hn => ?_⟩
    · rw [h5, if_neg (by simp)]
      exact Nat.le_succ_of_le h4
    · rw [h5] at hn; cases hn

/-- **C75, reading.** A reader of the same connection, if nothing on the wire deciphers as package number `i` unless this package was written completely: it reads only what is in the packages before the
first one that is torn. So nothing that is written after a torn package ever arrives, although writes and flushes return `Ok` again. -/
theorem C75_read (A : Aead) (key : Bytes) (packages : List (Bytes × Nat)) (wire : Bytes) (hn : packages.length < 2 ^ 64)
    (unforged : ∀ (i : Nat) (nonce c p : Bytes), i < 2 ^ 64 → Nonce i nonce → c <:+: wire → A.dec key nonce c = some p → ∃ n, packages[i]? = some (p, n) ∧ Whole (p, n) = true)
    (cs : List Chunk) (hcs : (cs.map Chunk.bytes).flatten <+: wire) (closed : Bool) (wants : List Nat) :
    readPolls A closed { dec := { key := key } } cs wants <+: ((packages.takeWhile Whole).map Prod.fst).flatten := by
  have hpre : ∀ (l : List (Bytes × Nat)) (k : Nat) (x : Bytes × Nat), k ≤ (l.takeWhile Whole).length → l[k]? = some x → Whole x = true → (l.takeWhile Whole)[k]? = some x := by
    intro l
    induction l with
    | nil => intro k x _ h; simp at h
    | cons y l ih =>
      intro k x hk h hx
      cases k with
      | zero => simp only [List.getElem?_cons_zero, Option.some.injEq] at h; subst h; simp [hx]
      | succ k =>
        cases hy : Whole y with
        | false => rw [List.takeWhile_cons_of_neg (by simp [hy])] at hk; simp at hk
        | true =>
          rw [List.takeWhile_cons_of_pos hy] at hk ⊢
          simp only [List.length_cons] at hk
          simpa using ih k x (by omega) (by simpa using h) hx
  have hlen : (packages.takeWhile Whole).length ≤ packages.length := (List.takeWhile_sublist _).length_le
  have hg : OnlyGood A key (flat cs) ((packages.takeWhile Whole).map Prod.fst) := by
    intro k c p hk hc hd
    rw [List.length_map] at hk
    have hk64 : k < 2 ^ 64 := by omega
    obtain ⟨n, h1, h2⟩ := unforged k _ c p hk64 ⟨putU64 (UInt64.ofNat k), by
      refine bigEndian_iff.2 ⟨by simp, ?_⟩
      rw [beVal_putU64]
      simp, nonce_eq _⟩ (hc.trans hcs.isInfix) hd
    rw [List.getElem?_map, hpre packages k _ hk h1 h2]
    rfl
  simpa using tinv_readPolls (closed := closed) hg wants (seen := []) (rs := { dec := { key := key } }) (cs := cs)
    ⟨0, Nat.zero_le _, by simp, Or.inr ⟨rfl, Or.inl ⟨rfl, List.suffix_rfl⟩⟩⟩

/-- A flush fails in the middle of its package; the next write and flush return `Ok`. -/
def opsErr : List (Call × List IoAns) :=
  [(.write [1, 2], []), (.flush, [.ready 100, .ready 1]), (.write [3], []), (.flush, [.ready 5, .fail .other]), (.write [4], []), (.flush, [.ready 100, .ready 1])]

example : SmallBuffers opsErr := by simp [SmallBuffers, opsErr]

/-- What is on the wire then: a package, 5 bytes of the next, a third one. -/
def wireErr : Bytes :=
  packageBytes (toyTag [5] (nonceFromNumber 0) [1, 2] ++ [1, 2]) ++ (packageBytes (toyTag [5] (nonceFromNumber 1) [3] ++ [3])).take 5 ++
    packageBytes (toyTag [5] (nonceFromNumber 2) [4] ++ [4])

theorem run_opsErr : ∃ s, Caller.polls toyAead { ws := { enc := { key := [5] } } } opsErr = some s ∧
    s.returned = [(.write [1, 2], none), (.flush, none), (.write [3], none), (.flush, some .other), (.write [4], none), (.flush, none)] ∧
    s.begun = [1, 2, 3, 4] ∧ s.cur = none ∧ s.wire = wireErr := by
  have h : (Caller.polls toyAead { ws := { enc := { key := [5] } } } opsErr).map (fun s => ((s.returned, s.begun), s.cur, s.wire)) =
      some (([(.write [1, 2], none), (.flush, none), (.write [3], none), (.flush, some .other), (.write [4], none), (.flush, none)], [1, 2, 3, 4]), none, wireErr) := by
    decide +kernel
  obtain ⟨s, h1, h2⟩ := Option.map_eq_some_iff.1 h
  simp only [Prod.mk.injEq] at h2
  exact ⟨s, h1, h2.1.1, h2.1.2, h2.2.1, h2.2.2⟩

/-- (A user would expect that data whose writing and flushing was reported `Ok` is read.) The write and the flush of the byte 4 have returned `Ok`, but the peer cannot read it: the read after the first
two bytes fails. -/
theorem C75_violated_lost : ∃ s, Caller.polls toyAead { ws := { enc := { key := [5] } } } opsErr = some s ∧
    s.returned = [(.write [1, 2], none), (.flush, none), (.write [3], none), (.flush, some .other), (.write [4], none), (.flush, none)] ∧
    readExacts toyAead { rs := { dec := { key := [5] } }, script := { chunks := [.data 0 (s.wire.drop 1)], closed := false } } [2] = some [[1, 2]] ∧
    readExacts toyAead { rs := { dec := { key := [5] } }, script := { chunks := [.data 0 (s.wire.drop 1)], closed := false } } [2, 1] = none := by
  obtain ⟨s, h1, h2, -, -, h3⟩ := run_opsErr
  refine ⟨s, h1, h2, ?_, ?_⟩
  · rw [h3]; decide +kernel
  · rw [h3]; decide +kernel

/-- The toy cipher has the nonce at the start of the ciphertext. -/
theorem toy_nonce {i : Nat} {key nonce c p : Bytes} (hi : i < 2 ^ 64) (hno : Nonce i nonce) (hd : toyAead.dec key nonce c = some p) :
    c.take 12 = nonce ∧ i = beVal (c.take 8) := by
  obtain ⟨nb, h1, h2⟩ := hno
  have hnl : nonce.length = 12 := by
    have := h1.1
    rw [h2]; simp; omega
  have hcl : c.take 16 = toyTag key nonce (c.drop 16) := by
    simp only [toyAead] at hd
    split at hd
    · assumption
    · cases hd
  have hn : c.take 12 = nonce := by
    have h3 := congrArg (List.take 12) hcl
    simp only [toyTag, List.take_take] at h3
    rw [List.take_append_of_le_length (by simp), List.take_take, List.take_append_of_le_length (by omega)] at h3
    rw [show min 12 16 = 12 from rfl, show min 12 12 = 12 from rfl] at h3
    rw [h3, List.take_of_length_le (by omega)]
  have hnb : c.take 8 = nb := by
    have h3 := congrArg (List.take 8) (hn.trans h2)
    rw [List.take_take, List.take_append_of_le_length (by have := h1.1; omega)] at h3
    rw [show min 8 12 = 8 from rfl] at h3
    rw [h3, List.take_of_length_le (by have := h1.1; omega)]
  refine ⟨hn, ?_⟩
  have := (bigEndian_iff.1 h1).2
  rw [← hnb] at this
  rw [← this]; omega

/-- The hypotheses of `C75_read` are met by this run; so the peer reads only 1 and 2, whatever it does. -/
example (cs : List Chunk) (hcs : (cs.map Chunk.bytes).flatten <+: wireErr) (closed : Bool) (wants : List Nat) :
    readPolls toyAead closed { dec := { key := [5] } } cs wants <+: [1, 2] := by
  refine C75_read toyAead [5] [([1, 2], 22), ([3], 5), ([4], 21)] wireErr (by decide) ?_ cs hcs closed wants
  intro i nonce c p hi hno hc hd
  have hfin : ∀ a < 49, ∀ b < 49, toyAead.dec [5] (((wireErr.drop a).take b).take 12) ((wireErr.drop a).take b) = none ∨
      (beVal (((wireErr.drop a).take b).take 8) = 0 ∧ toyAead.dec [5] (((wireErr.drop a).take b).take 12) ((wireErr.drop a).take b) = some [1, 2]) ∨
      (beVal (((wireErr.drop a).take b).take 8) = 2 ∧ toyAead.dec [5] (((wireErr.drop a).take b).take 12) ((wireErr.drop a).take b) = some [4]) := by
    decide +kernel
  obtain ⟨a, b, ha, hb, hab⟩ := infix_cut hc
  obtain ⟨h1, h2⟩ := toy_nonce hi hno hd
  have := hfin a ha b hb
  rw [← hab, h1, ← h2, hd] at this
  rcases this with h | ⟨rfl, h⟩ | ⟨rfl, h⟩
  · cases h
  · cases h; exact ⟨22, rfl, by decide⟩
  · cases h; exact ⟨21, rfl, by decide⟩

/-- A call that is polled when the transport is ready comes nearer to its end. -/
theorem caller_advances {A : Aead} {key : Bytes} {s s' : Caller} {c : Call} {as : List IoAns} (h : CInv A key s) (hc : s.cur = some c) (ha : TransportReady as) (hs : s.poll A c as = some s') :
    s'.cur = none ∨ left s'.ws < left s.ws := by
  obtain ⟨hq, h⟩ := h
  unfold Caller.poll at hs
  split at hs
  · cases hs
  · rcases h with ⟨h0, -⟩ | ⟨x, rem, -, ⟨buf, h2, h3⟩ | ⟨h2, h3⟩⟩ | ⟨x, -, h2, h3⟩
    · rw [h0] at hc; cases hc
    · rw [h2] at hc
      cases hc
      simp only [h3, WriteStream.pollWrite, pollFutWrite] at hs
      generalize hw : pollWriteAll rem as = v at hs
      obtain ⟨r, w, rem', as'⟩ := v
      rcases r with _ | _ | _
      · simp only at hs
        cases hs
        right
        have := pollWriteAll_ready ha hw
        simpa [left, h3] using this
      · simp only [Except.map] at hs; cases hs; exact .inl rfl
      · simp only [Except.map] at hs; cases hs; exact .inl rfl
    · rw [h2] at hc
      cases hc
      simp only [h3, WriteStream.pollFlush, pollFlushWrite] at hs
      generalize hw : pollWriteAll rem as = v at hs
      obtain ⟨r, w, rem', as'⟩ := v
      rcases r with _ | _ | _
      · simp only at hs
        cases hs
        right
        have := pollWriteAll_ready ha hw
        simpa [left, h3] using this
      · simp only at hs; cases hs; exact .inl rfl
      · cases as' with
        | nil => simp only [pollFutFlush] at hs; cases hs; right; simp [left, h3]
        | cons a as' =>
          cases a with
          | pending => simp only [pollFutFlush] at hs; cases hs; right; simp [left, h3]
          | fail e => simp only [pollFutFlush] at hs; cases hs; exact .inl rfl
          | ready n => simp only [pollFutFlush] at hs; cases hs; exact .inl rfl
    · rw [h2] at hc
      cases hc
      obtain ⟨n, rest, rfl⟩ := ha
      simp only [h3, WriteStream.pollFlush, pollFutFlush] at hs
      cases hs
      exact .inl rfl

theorem caller_ends {A : Aead} {key : Bytes} {c : Call} (hsm : ∀ buf, c = .write buf → buf.length + 1040 < 2 ^ 32) : ∀ (k : Nat) {s : Caller} {f : Nat → List IoAns}, left s.ws = k → CInv A key s → s.cur = some c →
    (∀ i, TransportReady (f i)) → ∃ n s' e, s.polls A ((List.range n).map fun i => (c, f i)) = some s' ∧ s'.cur = none ∧ s'.returned = s.returned ++ [(c, e)] ∧ ((∀ i, TransportFine (f i)) → e = none) := by
  intro k
  induction k using Nat.strongRecOn with
  | ind k ih =>
    intro s f hk hi hc ha
    obtain ⟨s1, h1, h2, h3⟩ := poll_returns (as := f 0) hi (smallCall_iff.2 hsm) (.inr hc)
    rcases h3 with ⟨h4, h5⟩ | ⟨h4, e, h5, h6⟩
    · have h7 := (caller_advances hi hc (ha 0) h1).resolve_left (by rw [h4]; simp)
      obtain ⟨n, s', e, g1, g2, g3, g4⟩ := ih _ (by omega) (s := s1) (f := fun i => f (i + 1)) rfl h2 h4 fun i => ha (i + 1)
      refine ⟨n + 1, s', e, ?_, g2, by rw [g3, h5], fun hf => g4 fun i => hf (i + 1)⟩
      rw [List.range_succ_eq_map, List.map_cons, List.map_map, Caller.polls, h1, Option.bind_some]
      exact g1
    · refine ⟨1, s1, e, by simp [Caller.polls, h1], h4, h5, fun hf => ?_⟩
      cases e with
      | none => rfl
      | some e => exact absurd (h6 (by simp)) (fine_iff.2 (hf 0))

/-- **C75, progress.** Whatever has been written and flushed before and whatever errors there were: every write and every flush, new or under way, returns if it is polled again and again and the transport takes at least one byte
in each poll; and it returns `Ok` unless the transport gives an error (or accepts nothing) in one of these polls. So a write half works again after an error, as far as its caller can see. -/
theorem C75_finishes (A : Aead) (key : Bytes) (polls : List (Call × List IoAns)) (s : Caller) (hr : Caller.polls A { ws := { enc := { key := key } } } polls = some s) (hp : SmallBuffers polls)
    (c : Call) (hc : s.cur = none ∨ s.cur = some c) (hsm : ∀ buf, c = .write buf → buf.length + 1040 < 2 ^ 32) (f : Nat → List IoAns) (ha : ∀ i, TransportReady (f i)) :
    ∃ n s' e, 0 < n ∧ s.polls A ((List.range n).map fun i => (c, f i)) = some s' ∧ s'.cur = none ∧ s'.panicked = false ∧ s'.returned = s.returned ++ [(c, e)] ∧ ((∀ i, TransportFine (f i)) → e = none) := by
  have hi := cinv_polls polls (cinv_init A key []) (fun p h => smallCall_iff.2 (hp p h)) hr
  have pan : ∀ n s', s.polls A ((List.range n).map fun i => (c, f i)) = some s' → s'.panicked = false := by
    intro n s' h
    refine (cinv_polls _ hi ?_ h).1
    intro p hp
    obtain ⟨i, -, rfl⟩ := List.mem_map.1 hp
    exact smallCall_iff.2 hsm
  obtain ⟨s1, h1, h2, h3⟩ := poll_returns (as := f 0) hi (smallCall_iff.2 hsm) hc
  rcases h3 with ⟨h4, h5⟩ | ⟨h4, e, h5, h6⟩
  · obtain ⟨n, s', e, g1, g2, g3, g4⟩ := caller_ends hsm _ (f := fun i => f (i + 1)) rfl h2 h4 fun i => ha (i + 1)
    have hrun : s.polls A ((List.range (n + 1)).map fun i => (c, f i)) = some s' := by
      rw [List.range_succ_eq_map, List.map_cons, List.map_map, Caller.polls, h1, Option.bind_some]
      exact g1
    exact ⟨n + 1, s', e, by omega, hrun, g2, pan _ _ hrun, by rw [g3, h5], fun hf => g4 fun i => hf (i + 1)⟩
  · have hrun : s.polls A ((List.range 1).map fun i => (c, f i)) = some s1 := by simp [Caller.polls, h1]
    refine ⟨1, s1, e, by omega, hrun, h4, pan _ _ hrun, h5, fun hf => ?_⟩
    cases e with
    | none => rfl
    | some e => exact absurd (h6 (by simp)) (fine_iff.2 (hf 0))

/-- The hypotheses can be met: after the calls of `opsErr`, of which a flush has failed, the next write; the transport takes one byte at each poll. -/
example : ∃ s, Caller.polls toyAead { ws := { enc := { key := [5] } } } opsErr = some s ∧ SmallBuffers opsErr ∧ s.cur = none ∧ s.returned.any (fun r => r.2.isSome) = true ∧
    TransportReady [.ready 1] ∧ TransportFine [.ready 1] := by
  have h : (Caller.polls toyAead { ws := { enc := { key := [5] } } } opsErr).map (fun s => (decide (s.cur = none), s.returned.any (fun r => r.2.isSome))) = some (true, true) := by decide +kernel
  obtain ⟨s, h1, h2⟩ := Option.map_eq_some_iff.1 h
  simp only [Prod.mk.injEq, decide_eq_true_eq] at h2
  refine ⟨s, h1, ?_, h2.1, h2.2, ⟨0, [], rfl⟩, by simp [TransportFine]⟩
  intro p hp buf hb
  simp only [opsErr, List.mem_cons, List.not_mem_nil, or_false] at hp
  rcases hp with rfl | rfl | rfl | rfl | rfl | rfl <;> cases hb <;> simp

end Bromine.Props
