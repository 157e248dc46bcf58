import Verif.Lemmas.CryptBytes
/-
A caller of the encrypted write half that goes on after errors; a reader of what it has written.
-/
namespace Bromine.CryptBytes
open Bromine Bromine.Spec CryptIO CryptWire

theorem torn_snoc {A : Aead} {key : Bytes} {m w rem : Bytes} : ∀ {ps : List (Bytes × Nat)} {i : Nat} {bs : Bytes}, TornPackages A key i ps bs →
    Package A key (i + ps.length) m (w ++ rem) → TornPackages A key i (ps ++ [(m, w.length)]) (bs ++ w) := by
  intro ps
  induction ps with
  | nil =>
    intro i bs h hp
    have h : bs = [] := h
    subst h
    exact ⟨w ++ rem, [], hp, by simp, by simp, rfl⟩
  | cons p ps ih =>
    intro i bs h hp
    obtain ⟨m', n'⟩ := p
    obtain ⟨pkg, rest, h1, h2, rfl, h3⟩ := h
    exact ⟨pkg, rest ++ w, h1, h2, by simp, ih h3 (by rw [Nat.add_assoc, Nat.add_comm 1]; exact hp)⟩

theorem package_length {A : Aead} {key : Bytes} {i : Nat} {m pkg : Bytes} (h : Package A key i m pkg) : pkg.length = m.length + 20 := by
  obtain ⟨nonce, c, lb, -, h2, h3, rfl⟩ := h
  have := h3.1
  rw [List.length_append, this, A.len _ _ _ _ h2]
  omega

/-- The package that is made next. -/
theorem encrypt_one {A : Aead} {key : Bytes} {n : Nat} {x : Encryptor} (hx : At key n x) {m : Bytes} (hm : m.length + 16 < 2 ^ 32) :
    ∃ c x', x.encrypt A m = (.ok c, x') ∧ At key (n + 1) x' ∧ Package A key n m (packageBytes c) := by
  obtain ⟨c, hc⟩ := Option.isSome_iff_exists.1 (A.total key (nonceFromNumber (UInt64.ofNat n)) m (by omega))
  obtain ⟨h1, h2⟩ := hx
  refine ⟨c, (x.encrypt A m).2, ?_, ?_, ?_⟩
  · simp only [Encryptor.encrypt, h1, h2, hc]
  · constructor
    · simp only [Encryptor.encrypt, h1, h2, hc]
    · simp only [Encryptor.encrypt, h1, h2, hc, ofNat_succ]
  · refine package_of_enc hc ?_
    rw [A.len _ _ _ _ hc]; omega

/-- How many packages are torn. -/
def tornCount (ps : List (Bytes × Nat)) : Nat := ps.countP fun p => !Whole p

/-- How many calls have returned an error. -/
def errCount (rs : List (Call × Option IoErr)) : Nat := rs.countP fun r => r.2.isSome

def flatP (ps : List (Bytes × Nat)) : Bytes := (ps.map Prod.fst).flatten

theorem flatP_snoc (ps : List (Bytes × Nat)) (m : Bytes) (n : Nat) : flatP (ps ++ [(m, n)]) = flatP ps ++ m := by simp [flatP]

theorem torn_snoc_le (ps : List (Bytes × Nat)) (p : Bytes × Nat) : tornCount (ps ++ [p]) ≤ tornCount ps + 1 := by
  unfold tornCount
  rw [List.countP_append, List.countP_singleton]
  split <;> omega

theorem torn_snoc_whole (ps : List (Bytes × Nat)) (p : Bytes × Nat) (h : Whole p = true) : tornCount (ps ++ [p]) = tornCount ps := by
  unfold tornCount
  rw [List.countP_append, List.countP_singleton]
  simp [h]

theorem err_ok (rs : List (Call × Option IoErr)) (c : Call) : errCount (rs ++ [(c, none)]) = errCount rs := by
  simp [errCount]

theorem err_err (rs : List (Call × Option IoErr)) (c : Call) (e : IoErr) : errCount (rs ++ [(c, some e)]) = errCount rs + 1 := by
  simp [errCount]

/-- No call is going on. -/
def AtRest (A : Aead) (key : Bytes) (s : Caller) : Prop :=
  s.cur = none ∧ ∃ ps x b, s.ws = { enc := x, buffer := b } ∧ b.length < WRITE_BUF_SIZE ∧ TornPackages A key 0 ps s.wire ∧ At key ps.length x ∧ flatP ps ++ b = s.begun ∧
    tornCount ps ≤ errCount s.returned ∧ ∀ e, s.returned.getLast? = some (.flush, e) → b = []

/-- A package is being written. -/
def InPackage (A : Aead) (key : Bytes) (s : Caller) (x : Encryptor) (rem : Bytes) : Prop :=
  ∃ ps m w0 w, s.wire = w0 ++ w ∧ TornPackages A key 0 ps w0 ∧ Package A key ps.length m (w ++ rem) ∧ At key (ps.length + 1) x ∧ flatP ps ++ m = s.begun ∧
    tornCount ps ≤ errCount s.returned

/-- The transport is being flushed. -/
def InFlush (A : Aead) (key : Bytes) (s : Caller) (x : Encryptor) : Prop :=
  ∃ ps, TornPackages A key 0 ps s.wire ∧ At key ps.length x ∧ flatP ps = s.begun ∧ tornCount ps ≤ errCount s.returned

def CInv (A : Aead) (key : Bytes) (s : Caller) : Prop :=
  s.panicked = false ∧
  (AtRest A key s ∨
   (∃ x rem, InPackage A key s x rem ∧
     ((∃ buf, s.cur = some (.write buf) ∧ s.ws = { enc := x, inner := false, cipher := false, futWrite := some rem }) ∨
      (s.cur = some .flush ∧ s.ws = { enc := x, inner := false, cipher := false, futFlush := some (.writing rem) }))) ∨
   (∃ x, InFlush A key s x ∧ s.cur = some .flush ∧ s.ws = { enc := x, inner := false, cipher := false, futFlush := some .flushing }))

theorem cinv_init (A : Aead) (key : Bytes) (log : List Encryption) : CInv A key { ws := { enc := { key := key, log := log } } } :=
  ⟨rfl, Or.inl ⟨rfl, [], _, [], rfl, by simp [WRITE_BUF_SIZE], rfl, ⟨rfl, rfl⟩, rfl, Nat.zero_le _, by simp⟩⟩

/-- More of the package has been written. -/
theorem InPackage.adv {A : Aead} {key : Bytes} {s s' : Caller} {x : Encryptor} {w rem : Bytes} (h : InPackage A key s x (w ++ rem)) (hw : s'.wire = s.wire ++ w)
    (hb : s'.begun = s.begun) (hr : s'.returned = s.returned) : InPackage A key s' x rem := by
  obtain ⟨ps, m, w0, w1, h1, h2, h3, h4, h5, h6⟩ := h
  exact ⟨ps, m, w0, w1 ++ w, by rw [hw, h1, List.append_assoc], h2, by rw [List.append_assoc]; exact h3, h4, by rw [hb]; exact h5, by rw [hr]; exact h6⟩

/-- The package has been written. -/
theorem InPackage.full {A : Aead} {key : Bytes} {s : Caller} {x : Encryptor} (h : InPackage A key s x []) : InFlush A key s x := by
  obtain ⟨ps, m, w0, w, h1, h2, h3, h4, h5, h6⟩ := h
  refine ⟨ps ++ [(m, w.length)], by rw [h1]; exact torn_snoc h2 (by rw [Nat.zero_add]; exact h3), by simpa using h4, by rw [flatP_snoc]; exact h5, ?_⟩
  rw [torn_snoc_whole _ _ (by
    have := package_length h3
    rw [List.append_nil] at this
    simp [Whole, this])]
  exact h6

/-- The call ends with an error in the middle of a package. -/
theorem InPackage.fail {A : Aead} {key : Bytes} {s s' : Caller} {x : Encryptor} {rem : Bytes} {c : Call} {e : IoErr} (h : InPackage A key s x rem)
    (hw : s'.wire = s.wire) (hb : s'.begun = s.begun) (hr : s'.returned = s.returned ++ [(c, some e)]) (hc : s'.cur = none)
    (hws : s'.ws = { enc := x }) : AtRest A key s' := by
  obtain ⟨ps, m, w0, w, h1, h2, h3, h4, h5, h6⟩ := h
  refine ⟨hc, ps ++ [(m, w.length)], x, [], hws, by simp [WRITE_BUF_SIZE], ?_, by simpa using h4, by rw [flatP_snoc, List.append_nil, hb]; exact h5, ?_, by simp⟩
  · rw [hw, h1]; exact torn_snoc h2 (by rw [Nat.zero_add]; exact h3)
  · rw [hr, err_err]
    exact Nat.le_trans (torn_snoc_le _ _) (by omega)

/-- The call ends. -/
theorem InFlush.ret {A : Aead} {key : Bytes} {s s' : Caller} {x : Encryptor} {c : Call} {e : Option IoErr} (h : InFlush A key s x)
    (hw : s'.wire = s.wire) (hb : s'.begun = s.begun) (hr : s'.returned = s.returned ++ [(c, e)]) (hc : s'.cur = none)
    (hws : s'.ws = { enc := x }) : AtRest A key s' := by
  obtain ⟨ps, h1, h2, h3, h4⟩ := h
  refine ⟨hc, ps, x, [], hws, by simp [WRITE_BUF_SIZE], by rw [hw]; exact h1, h2, by rw [List.append_nil, hb]; exact h3, ?_, by simp⟩
  rw [hr]
  cases e with
  | none => rw [err_ok]; exact h4
  | some e => rw [err_err]; omega

theorem cinv_futWrite {A : Aead} {key : Bytes} {s : Caller} {rem buf : Bytes} {f : Option Bytes} {x : Encryptor} {as : List IoAns} {len : Nat}
    (hp : InPackage A key s x rem) (hq : s.panicked = false) {s' : Caller}
    (hs : (let r := pollFutWrite { enc := x, inner := false, cipher := false, futWrite := f } rem len as
      let s := { s with ws := r.ws, wire := s.wire ++ r.wire }
      match r.poll with
      | .pending _ => some { s with cur := some (.write buf) }
      | .ready (.ok _) => some { s with cur := none, returned := s.returned ++ [(.write buf, none)] }
      | .ready (.error e) => some { s with cur := none, returned := s.returned ++ [(.write buf, some e)] }
      | .panic => some { s with panicked := true }) = some s') : CInv A key s' := by
  unfold pollFutWrite at hs
  generalize hw : pollWriteAll rem as = v at hs
  obtain ⟨r, w, rem', as'⟩ := v
  obtain ⟨h1, h2, -, -⟩ := pollWriteAll_spec hw
  subst h1
  cases r with
  | none =>
    simp only at hs
    cases hs
    exact ⟨hq, Or.inr (Or.inl ⟨x, rem', hp.adv rfl rfl rfl, Or.inl ⟨buf, rfl, rfl⟩⟩)⟩
  | some r =>
    cases r with
    | error er =>
      simp only [Except.map] at hs
      cases hs
      exact ⟨hq, Or.inl ((hp.adv (s' := { s with wire := s.wire ++ w }) rfl rfl rfl).fail rfl rfl rfl rfl rfl)⟩
    | ok u =>
      have := h2 rfl
      subst this
      simp only [Except.map] at hs
      cases hs
      exact ⟨hq, Or.inl ((hp.adv (s' := { s with wire := s.wire ++ w }) rfl rfl rfl).full.ret rfl rfl rfl rfl rfl)⟩

theorem cinv_futFlush {A : Aead} {key : Bytes} {s : Caller} {f : Option FlushFut} {x : Encryptor} {as : List IoAns}
    (hp : InFlush A key s x) (hq : s.panicked = false) {s' : Caller} {r : WriteRes Unit}
    (hr : r.poll = (pollFutFlush { enc := x, inner := false, cipher := false, futFlush := f } as).poll)
    (hr' : r.ws = (pollFutFlush { enc := x, inner := false, cipher := false, futFlush := f } as).ws)
    (hs : (match r.poll with
      | .pending _ => some { s with ws := r.ws, cur := some .flush }
      | .ready (.ok _) => some { s with ws := r.ws, cur := none, returned := s.returned ++ [(.flush, none)] }
      | .ready (.error e) => some { s with ws := r.ws, cur := none, returned := s.returned ++ [(.flush, some e)] }
      | .panic => some { s with ws := r.ws, panicked := true }) = some s') : CInv A key s' := by
  rw [hr, hr'] at hs
  unfold pollFutFlush at hs
  have hpend : s' = { s with ws := { enc := x, inner := false, cipher := false, futFlush := some .flushing }, cur := some .flush } → CInv A key s' := by
    rintro rfl
    exact ⟨hq, Or.inr (Or.inr ⟨x, hp, rfl, rfl⟩)⟩
  cases as with
  | nil => cases hs; exact hpend rfl
  | cons a as =>
    cases a with
    | pending => cases hs; exact hpend rfl
    | fail er => cases hs; exact ⟨hq, Or.inl (hp.ret rfl rfl rfl rfl rfl)⟩
    | ready n => cases hs; exact ⟨hq, Or.inl (hp.ret rfl rfl rfl rfl rfl)⟩

theorem cinv_flushWrite {A : Aead} {key : Bytes} {s : Caller} {rem : Bytes} {f : Option FlushFut} {x : Encryptor} {as : List IoAns}
    (hp : InPackage A key s x rem) (hq : s.panicked = false) {s' : Caller}
    (hs : (let r := pollFlushWrite { enc := x, inner := false, cipher := false, futFlush := f } rem as
      let s := { s with ws := r.ws, wire := s.wire ++ r.wire }
      match r.poll with
      | .pending _ => some { s with cur := some .flush }
      | .ready (.ok _) => some { s with cur := none, returned := s.returned ++ [(.flush, none)] }
      | .ready (.error e) => some { s with cur := none, returned := s.returned ++ [(.flush, some e)] }
      | .panic => some { s with panicked := true }) = some s') : CInv A key s' := by
  unfold pollFlushWrite at hs
  generalize hw : pollWriteAll rem as = v at hs
  obtain ⟨r, w, rem', as'⟩ := v
  obtain ⟨h1, h2, -, -⟩ := pollWriteAll_spec hw
  subst h1
  cases r with
  | none =>
    simp only at hs
    cases hs
    exact ⟨hq, Or.inr (Or.inl ⟨x, rem', hp.adv rfl rfl rfl, Or.inr ⟨rfl, rfl⟩⟩)⟩
  | some r =>
    cases r with
    | error er =>
      simp only at hs
      cases hs
      exact ⟨hq, Or.inl ((hp.adv (s' := { s with wire := s.wire ++ w }) rfl rfl rfl).fail rfl rfl rfl rfl rfl)⟩
    | ok u =>
      have := h2 rfl
      subst this
      simp only at hs
      exact cinv_futFlush (s := { s with wire := s.wire ++ w }) ((hp.adv (s' := { s with wire := s.wire ++ w }) rfl rfl rfl).full) hq rfl rfl hs

theorem futFlush_wire (ws : WriteStream) (as : List IoAns) : (pollFutFlush ws as).wire = [] := by
  unfold pollFutFlush
  split <;> rfl

theorem cinv_poll {A : Aead} {key : Bytes} {s s' : Caller} {c : Call} {as : List IoAns} (h : CInv A key s) (hc : SmallCall c)
    (hs : s.poll A c as = some s') : CInv A key s' := by
  unfold Caller.poll at hs
  split at hs
  · cases hs
  rename_i hg
  simp only [not_or, not_and, Decidable.not_not] at hg
  obtain ⟨-, hcur⟩ := hg
  obtain ⟨hq, h⟩ := h
  cases c with
  | write buf =>
    simp only at hs
    rcases h with ⟨h0, ps, x, b, h1, h2, h3, h4, h5, h6, h7⟩ | ⟨x, rem, h1, ⟨buf', h2, h3⟩ | ⟨h2, -⟩⟩ | ⟨x, -, h2, -⟩
    · obtain ⟨ws, wire, begun, cur, returned, panicked⟩ := s
      simp only at h0 h1 h3 h5 h6 h7 hq hs
      subst h0 h1 hq
      unfold WriteStream.pollWrite at hs
      simp only at hs
      have hc' : buf.length + 1024 + 16 < 2 ^ 32 := hc
      have h2' : b.length < 1024 := h2
      have hlen : (b ++ buf).length + 16 < 2 ^ 32 := by rw [List.length_append]; omega
      by_cases hle : WRITE_BUF_SIZE ≤ (b ++ buf).length
      · rw [if_pos hle] at hs
        have htake : (b ++ buf).take u32Max = b ++ buf := List.take_of_length_le (by unfold u32Max; omega)
        have hdrop : (b ++ buf).drop u32Max = [] := List.drop_of_length_le (by unfold u32Max; omega)
        rw [htake, hdrop] at hs
        obtain ⟨c, x', e1, e2, e3⟩ := encrypt_one h4 hlen
        simp only [Bool.and_self, if_true] at hs
        rw [e1] at hs
        refine cinv_futWrite (s := ⟨{ enc := x, buffer := b }, wire, begun ++ buf, none, returned, false⟩) (rem := packageBytes c) (buf := buf) (f := none) (x := x')
          ⟨ps, b ++ buf, wire, [], by simp, h3, by simpa using e3, e2, by rw [← List.append_assoc, h5], h6⟩ rfl hs
      · rw [if_neg hle] at hs
        cases hs
        have hlt : (b ++ buf).length < 1024 := Nat.lt_of_not_le hle
        refine ⟨rfl, Or.inl ⟨rfl, ps, x, b ++ buf, rfl, hlt, by simpa using h3, h4, ?_, ?_, by simp⟩⟩
        · simp only [if_true]
          rw [← List.append_assoc, h5]
        · rw [err_ok]; exact h6
    · have : buf' = buf := by
        have := hcur (by rw [h2]; simp)
        rw [h2] at this
        simpa using this
      subst this
      obtain ⟨ws, wire, begun, cur, returned, panicked⟩ := s
      simp only at h2 h3 hs hq
      subst h2 h3
      unfold WriteStream.pollWrite at hs
      simp only [reduceCtorEq, if_false] at hs
      exact cinv_futWrite h1 hq hs
    · have := hcur (by rw [h2]; simp)
      rw [h2] at this
      cases this
    · have := hcur (by rw [h2]; simp)
      rw [h2] at this
      cases this
  | flush =>
    simp only at hs
    rcases h with ⟨h0, ps, x, b, h1, h2, h3, h4, h5, h6, h7⟩ | ⟨x, rem, h1, ⟨buf', h2, h3⟩ | ⟨h2, h3⟩⟩ | ⟨x, h1, h2, h3⟩
    · obtain ⟨ws, wire, begun, cur, returned, panicked⟩ := s
      simp only at h0 h1 h3 h5 h6 h7 hq hs
      subst h0 h1 hq
      have h2' : b.length < 1024 := h2
      unfold WriteStream.pollFlush at hs
      simp only at hs
      have htake : b.take u32Max = b := List.take_of_length_le (by unfold u32Max; omega)
      have hdrop : b.drop u32Max = [] := List.drop_of_length_le (by unfold u32Max; omega)
      rw [htake, hdrop] at hs
      simp only [Bool.and_self, if_true] at hs
      by_cases hlt : 0 < b.length
      · rw [if_pos hlt] at hs
        obtain ⟨c, x', e1, e2, e3⟩ := encrypt_one h4 (m := b) (by omega)
        rw [e1] at hs
        exact cinv_flushWrite (s := ⟨{ enc := x, buffer := b }, wire, begun, none, returned, false⟩) (rem := packageBytes c) (x := x')
          ⟨ps, b, wire, [], by simp, h3, by simpa using e3, e2, h5, h6⟩ rfl hs
      · rw [if_neg hlt] at hs
        have : b = [] := by
          cases b with
          | nil => rfl
          | cons a b => simp at hlt
        subst this
        rw [futFlush_wire, List.append_nil] at hs
        exact cinv_futFlush (s := ⟨{ enc := x, buffer := [] }, wire, begun, none, returned, false⟩) (f := none)
          (r := pollFutFlush { enc := x, inner := false, cipher := false } as) ⟨ps, h3, h4, by simpa using h5, h6⟩ rfl rfl rfl hs
    · have := hcur (by rw [h2]; simp)
      rw [h2] at this
      cases this
    · unfold WriteStream.pollFlush at hs
      rw [h3] at hs
      simp only at hs
      exact cinv_flushWrite h1 hq hs
    · unfold WriteStream.pollFlush at hs
      rw [h3] at hs
      simp only at hs
      rw [futFlush_wire, List.append_nil] at hs
      exact cinv_futFlush (s := s) (f := some .flushing)
        (r := pollFutFlush { enc := x, inner := false, cipher := false, futFlush := some .flushing } as) h1 hq rfl rfl hs

theorem cinv_polls {A : Aead} {key : Bytes} : ∀ (ps : List (Call × List IoAns)) {s s' : Caller}, CInv A key s →
    (∀ p ∈ ps, SmallCall p.1) → s.polls A ps = some s' → CInv A key s' := by
  intro ps
  induction ps with
  | nil => intro s s' h _ hs; cases hs; exact h
  | cons p ps ih =>
    intro s s' h hps hs
    obtain ⟨c, as⟩ := p
    simp only [Caller.polls] at hs
    cases hx : s.poll A c as with
    | none => simp [hx] at hs
    | some s1 =>
      simp only [hx, Option.bind_some] at hs
      exact ih (cinv_poll h (hps (c, as) (by simp)) hx) (fun p hp => hps p (by simp [hp])) hs

/-! ### Reading -/

theorem feed_append : ∀ (bs acc : Bytes), (feed acc bs).1 ++ (feed acc bs).2 = acc ++ bs := by
  intro bs
  induction bs with
  | nil => intro acc; simp [feed]
  | cons b bs ih =>
    intro acc
    simp only [feed]
    split
    · rfl
    · rw [ih]; simp

theorem feed_rest : ∀ (bs acc : Bytes), complete (feed acc bs).1 ≠ true → (feed acc bs).2 = [] := by
  intro bs
  induction bs with
  | nil => intro acc _; simp [feed]
  | cons b bs ih =>
    intro acc hc
    simp only [feed] at hc ⊢
    split at hc
    · rename_i h'; exact absurd h' hc
    · rw [if_neg (by assumption)]; exact ih _ hc

/-- The package that is found is among the bytes. -/
theorem pollPackage_done {closed : Bool} : ∀ (cs : List Chunk) (acc c : Bytes) (cs' : List Chunk),
    pollPackage closed acc cs = (.done c, cs') → ∃ hd, acc ++ flat cs = hd ++ c ++ flat cs' := by
  intro cs
  induction cs with
  | nil => intro acc c cs' h; cases closed <;> simp [pollPackage] at h
  | cons ch cs ih =>
    intro acc c cs' h
    cases ch with
    | pending => simp [pollPackage] at h
    | data b bs =>
      simp only [pollPackage] at h
      have hfa := feed_append (b :: bs) acc
      split at h
      · cases h
        refine ⟨(feed acc (b :: bs)).1.take 4, ?_⟩
        rw [List.take_append_drop, flat_pushRest, ← List.append_assoc, hfa]
        simp [Chunk.bytes]
      · rename_i hc
        obtain ⟨hd, h⟩ := ih _ _ _ h
        refine ⟨hd, ?_⟩
        rw [← h]
        rw [feed_rest _ _ hc, List.append_nil] at hfa
        rw [hfa]
        simp [Chunk.bytes]

/-- What the read half has read: the plaintexts of the first packages. -/
def TInv (key wire : Bytes) (good : List Bytes) (seen : Bytes) (rs : ReadStream) (cs : List Chunk) : Prop :=
  ∃ k, k ≤ good.length ∧ seen ++ rs.remaining = (good.take k).flatten ∧
    (rs.fut = some .finished ∨
     (rs.dec = { key := key, count := UInt64.ofNat k } ∧
      ((rs.fut = none ∧ flat cs <:+ wire) ∨ ∃ acc, rs.fut = some (.reading acc) ∧ acc ++ flat cs <:+ wire)))

/-- Only the plaintexts `good` can be found on the wire, each at its place. -/
def OnlyGood (A : Aead) (key wire : Bytes) (good : List Bytes) : Prop :=
  ∀ (k : Nat) (c p : Bytes), k ≤ good.length → c <:+: wire → A.dec key (nonceFromNumber (UInt64.ofNat k)) c = some p → good[k]? = some p

theorem tinv_fut {A : Aead} {key wire seen : Bytes} {good : List Bytes} {rs : ReadStream} {cs : List Chunk} (hg : OnlyGood A key wire good) (closed : Bool) (want : Nat)
    (h : TInv key wire good seen rs cs) (hf : rs.fut ≠ none) :
    TInv key wire good (seen ++ (pollFutRead A closed rs want cs).filled) (pollFutRead A closed rs want cs).rs (pollFutRead A closed rs want cs).chunks := by
  obtain ⟨k, h1, h2, h3⟩ := h
  rcases h3 with h3 | ⟨h3, ⟨h4, -⟩ | ⟨acc, h4, h5⟩⟩
  · simp only [pollFutRead, h3]
    exact ⟨k, h1, by simpa using h2, Or.inl h3⟩
  · exact absurd h4 hf
  · simp only [pollFutRead, h4]
    generalize hp : pollPackage closed acc cs = v
    obtain ⟨v, cs'⟩ := v
    cases v with
    | pending acc' =>
      simp only
      exact ⟨k, h1, by simpa using h2, Or.inr ⟨h3, Or.inr ⟨acc', rfl, by rw [pollPackage_keeps _ _ _ _ hp]; exact h5⟩⟩⟩
    | err e => exact ⟨k, h1, by simpa using h2, Or.inl rfl⟩
    | done c =>
      obtain ⟨hd, hhd⟩ := pollPackage_done _ _ _ _ hp
      rw [hhd] at h5
      have hin : c <:+: wire := by
        obtain ⟨t, ht⟩ := h5
        exact ⟨t ++ hd, flat cs', by rw [← ht]; simp⟩
      cases hdec : A.dec key (nonceFromNumber (UInt64.ofNat k)) c with
      | none =>
        simp only [Decryptor.decrypt, h3, hdec]
        exact ⟨k, h1, by simpa using h2, Or.inl rfl⟩
      | some p =>
        simp only [Decryptor.decrypt, h3, hdec]
        have hk := hg k c p h1 hin hdec
        have hlt := (List.getElem?_eq_some_iff.1 hk).1
        refine ⟨k + 1, hlt, ?_, Or.inr ⟨by simp, Or.inl ⟨rfl, ?_⟩⟩⟩
        · rw [List.append_assoc, List.take_append_drop, ← List.append_assoc, h2, List.take_add_one, hk]
          simp
        · exact (List.suffix_append _ _).trans h5

theorem tinv_poll {A : Aead} {key wire seen : Bytes} {good : List Bytes} {rs : ReadStream} {cs : List Chunk} (hg : OnlyGood A key wire good) (closed : Bool) (want : Nat)
    (h : TInv key wire good seen rs cs) :
    TInv key wire good (seen ++ (rs.pollRead A closed want cs).filled) (rs.pollRead A closed want cs).rs (rs.pollRead A closed want cs).chunks := by
  unfold ReadStream.pollRead
  split
  · rename_i hf
    exact tinv_fut hg closed want h (by rw [hf]; simp)
  · rename_i hf
    obtain ⟨k, h1, h2, h3⟩ := h
    rcases h3 with h3 | ⟨h3, ⟨h4, h5⟩ | ⟨acc, h4, -⟩⟩
    · rw [hf] at h3; cases h3
    · have h2' : seen ++ rs.remaining.take want ++ rs.remaining.drop want = (good.take k).flatten := by
        rw [← h2, List.append_assoc, List.take_append_drop]
      simp only
      split
      · have := tinv_fut (A := A) (seen := seen ++ rs.remaining.take want)
          (rs := { rs with remaining := rs.remaining.drop want, fut := some (.reading []) }) (cs := cs) hg closed
          (want - (rs.remaining.take want).length) ⟨k, h1, h2', Or.inr ⟨h3, Or.inr ⟨[], rfl, by simpa using h5⟩⟩⟩ (by simp)
        rw [List.append_assoc] at this
        exact this
      · exact ⟨k, h1, h2', Or.inr ⟨h3, Or.inl ⟨hf, h5⟩⟩⟩
    · rw [hf] at h4; cases h4

theorem tinv_readPolls {A : Aead} {key wire : Bytes} {good : List Bytes} {closed : Bool} (hg : OnlyGood A key wire good) : ∀ (ws : List Nat) {seen : Bytes} {rs : ReadStream}
    {cs : List Chunk}, TInv key wire good seen rs cs → seen ++ readPolls A closed rs cs ws <+: good.flatten := by
  intro ws
  induction ws with
  | nil =>
    intro seen rs cs ⟨k, _, h2, _⟩
    simp only [readPolls, List.append_nil]
    refine List.IsPrefix.trans ⟨_, h2⟩ ?_
    conv => rhs; rw [← List.take_append_drop k good, List.flatten_append]
    exact List.prefix_append _ _
  | cons w ws ih =>
    intro seen rs cs h
    simp only [readPolls]
    rw [← List.append_assoc]
    exact ih (tinv_poll hg closed w h)

end Bromine.CryptBytes
