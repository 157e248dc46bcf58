import Verif.Model.CryptIO
import Verif.Lemmas.Stream
/-
Lemmas about packages and about reading from an encrypted connection.
-/
namespace Bromine.CryptIO
open Bromine

theorem complete_iff {acc : Bytes} : complete acc = true ↔ 4 ≤ acc.length ∧ acc.length = 4 + beVal (acc.take 4) := by
  simp [complete]

theorem complete_package {c : Bytes} (h : c.length < 2 ^ 32) : complete (packageBytes c) = true := by
  rw [complete_iff]
  unfold packageBytes
  have hl : (putU32 (UInt32.ofNat c.length)).length = 4 := length_putU32 _
  have ht : (putU32 (UInt32.ofNat c.length) ++ c).take 4 = putU32 (UInt32.ofNat c.length) := by
    rw [List.take_append_of_le_length (by omega), List.take_of_length_le (by omega)]
  rw [ht]
  have hv : beVal (putU32 (UInt32.ofNat c.length)) = c.length := by
    unfold putU32
    rw [beVal_beBytes, toNat32 h]
    exact Nat.mod_eq_of_lt h
  rw [hv, List.length_append, hl]
  omega

theorem drop_package (c : Bytes) : (packageBytes c).drop 4 = c := by
  unfold packageBytes
  have hl : (putU32 (UInt32.ofNat c.length)).length = 4 := length_putU32 _
  rw [List.drop_append_of_le_length (by omega), List.drop_of_length_le (by omega), List.nil_append]

/-- No proper prefix of a complete package is complete. -/
theorem complete_unique {p q z : Bytes} (hp : complete p = true) (hq : complete q = true) (h : p = q ++ z) : z = [] := by
  rw [complete_iff] at hp hq
  subst h
  rw [List.take_append_of_le_length hq.1, List.length_append] at hp
  have : z.length = 0 := by omega
  exact List.eq_nil_of_length_eq_zero this

theorem feed_all {p acc bs z : Bytes} (hp : complete p = true) (h : p = acc ++ bs ++ z) :
    feed acc bs = (acc ++ bs, []) := by
  induction bs generalizing acc with
  | nil => simp [feed]
  | cons b bs ih =>
    unfold feed
    have hc : ¬ complete acc = true := by
      intro hc
      have := complete_unique hp hc (z := b :: bs ++ z) (by rw [h]; simp)
      simp at this
    rw [if_neg hc, ih (by rw [h]; simp)]
    simp

theorem feed_done {p acc bs rest : Bytes} (hp : complete p = true) (y : Bytes) (hy : p = acc ++ y)
    (h : acc ++ bs = p ++ rest) : feed acc bs = (p, rest) := by
  induction bs generalizing acc y with
  | nil =>
    subst hy
    simp only [List.append_nil, List.append_assoc, List.self_eq_append_right, List.append_eq_nil_iff] at h
    obtain ⟨rfl, rfl⟩ := h
    simp [feed]
  | cons b bs ih =>
    unfold feed
    cases y with
    | nil =>
      simp only [List.append_nil] at hy
      subst hy
      rw [if_pos hp]
      simp only [List.append_cancel_left_eq] at h
      rw [h]
    | cons c ys =>
      have hc : ¬ complete acc = true := by
        intro hc
        have := complete_unique hp hc hy
        simp at this
      rw [if_neg hc]
      rw [hy, List.append_assoc] at h
      simp only [List.append_cancel_left_eq, List.cons_append, List.cons.injEq] at h
      obtain ⟨rfl, h⟩ := h
      refine ih ys (by rw [hy]; simp) ?_
      rw [hy, h]; simp

/-- No beginning of the bytes is a whole package. -/
def Incomplete (x : Bytes) : Prop := ∀ p rest, x = p ++ rest → complete p = false

theorem complete_or (x : Bytes) : (∃ p rest, x = p ++ rest ∧ complete p = true) ∨ Incomplete x := by
  rcases Classical.em (∃ p rest, x = p ++ rest ∧ complete p = true) with h | h
  · exact Or.inl h
  · refine Or.inr fun p rest hx => ?_
    cases hc : complete p
    · rfl
    · exact absurd ⟨p, rest, hx, hc⟩ h

theorem feed_incomplete {acc bs : Bytes} (h : Incomplete (acc ++ bs)) : feed acc bs = (acc ++ bs, []) := by
  induction bs generalizing acc with
  | nil => simp [feed]
  | cons b bs ih =>
    unfold feed
    rw [if_neg (by simp [h acc (b :: bs) rfl]), ih (by simpa using h)]
    simp

theorem Incomplete.left {x y : Bytes} (h : Incomplete (x ++ y)) : Incomplete x := by
  intro p rest hx
  exact h p (rest ++ y) (by rw [hx]; simp)

/-- Part of a package, cut somewhere. -/
theorem incomplete_of_cut {p x z : Bytes} (hp : complete p = true) (h : p = x ++ z) (hz : z ≠ []) : Incomplete x := by
  intro q rest hq
  cases hc : complete q
  · rfl
  · have := complete_unique hp hc (z := rest ++ z) (by rw [h, hq]; simp)
    simp [hz] at this

theorem pollPackage_complete {closed : Bool} {p rest : Bytes} (hp : complete p = true) :
    ∀ (cs : List Chunk) (acc y : Bytes), p = acc ++ y → y ≠ [] → acc ++ flat cs = p ++ rest →
    (∃ acc' y' cs', pollPackage closed acc cs = (.pending acc', cs') ∧ cs'.length < cs.length ∧ p = acc' ++ y' ∧ y' ≠ [] ∧
      acc' ++ flat cs' = p ++ rest) ∨
    (∃ cs', pollPackage closed acc cs = (.done (p.drop 4), cs') ∧ flat cs' = rest) := by
  intro cs
  induction cs with
  | nil =>
    intro acc y hy hne h
    subst hy
    simp at h
    exact absurd h.1 hne
  | cons c cs ih =>
    intro acc y hy hne h
    cases c with
    | pending =>
      exact Or.inl ⟨acc, y, cs, by simp [pollPackage], by simp, hy, hne, by simpa [Chunk.bytes] using h⟩
    | data b bs =>
      have hfl : flat (.data b bs :: cs) = (b :: bs) ++ flat cs := by simp [Chunk.bytes]
      rw [hfl] at h
      have hy2 : (b :: bs) ++ flat cs = y ++ rest := by
        rw [hy, List.append_assoc] at h
        exact List.append_cancel_left h
      rcases List.append_eq_append_iff.1 hy2 with ⟨z, h1, h2⟩ | ⟨z, h1, h2⟩
      · by_cases hz : z = []
        · subst hz
          simp only [List.append_nil, List.nil_append] at h1 h2
          right
          refine ⟨cs, ?_, h2⟩
          have hf : feed acc (b :: bs) = (p, []) := feed_done hp y hy (by rw [hy, h1]; simp)
          simp only [pollPackage, hf]
          rw [if_pos hp]; rfl
        · have hf : feed acc (b :: bs) = (acc ++ (b :: bs), []) :=
            feed_all hp (z := z) (by rw [hy, h1]; simp)
          have hnc : ¬ complete (acc ++ (b :: bs)) = true := by
            intro hc
            exact hz (complete_unique hp hc (z := z) (by rw [hy, h1]; simp))
          rcases ih (acc ++ (b :: bs)) z (by rw [hy, h1]; simp) hz (by rw [List.append_assoc]; exact h) with
            ⟨acc', y', cs', g1, g2, g3, g4, g5⟩ | ⟨cs', g1, g2⟩
          · left
            refine ⟨acc', y', cs', ?_, by simp; omega, g3, g4, g5⟩
            simp only [pollPackage, hf]
            rw [if_neg hnc]; exact g1
          · right
            refine ⟨cs', ?_, g2⟩
            simp only [pollPackage, hf]
            rw [if_neg hnc]; exact g1
      · right
        refine ⟨pushRest z cs, ?_, by rw [flat_pushRest, h2]⟩
        have hf : feed acc (b :: bs) = (p, z) := feed_done hp y hy (by rw [hy, h1]; simp)
        simp only [pollPackage, hf]
        rw [if_pos hp]

theorem pollPackage_incomplete {closed : Bool} :
    ∀ (cs : List Chunk) (acc : Bytes), Incomplete (acc ++ flat cs) →
    (∃ acc' cs', pollPackage closed acc cs = (.pending acc', cs') ∧ (cs'.length < cs.length ∨ (cs' = [] ∧ closed = false)) ∧
      Incomplete (acc' ++ flat cs')) ∨
    (pollPackage closed acc cs = (.err .unexpectedEof, []) ∧ closed = true) := by
  intro cs
  induction cs with
  | nil =>
    intro acc h
    cases closed with
    | true => exact Or.inr ⟨by simp [pollPackage], rfl⟩
    | false => exact Or.inl ⟨acc, [], by simp [pollPackage], Or.inr ⟨rfl, rfl⟩, h⟩
  | cons c cs ih =>
    intro acc h
    cases c with
    | pending => exact Or.inl ⟨acc, cs, by simp [pollPackage], Or.inl (by simp), by simpa [Chunk.bytes] using h⟩
    | data b bs =>
      have hfl : flat (.data b bs :: cs) = (b :: bs) ++ flat cs := by simp [Chunk.bytes]
      rw [hfl, ← List.append_assoc] at h
      have hf := feed_incomplete h.left
      have hnc : complete (acc ++ (b :: bs)) = false := h.left _ [] (by simp)
      rcases ih _ h with ⟨acc', cs', g1, g2, g3⟩ | ⟨g1, g2⟩
      · left
        refine ⟨acc', cs', ?_, ?_, g3⟩
        · simp only [pollPackage, hf]; rw [if_neg (by simp [hnc])]; exact g1
        · rcases g2 with g2 | g2
          · left; simp; omega
          · exact Or.inr g2
      · right
        refine ⟨?_, g2⟩
        simp only [pollPackage, hf]; rw [if_neg (by simp [hnc])]; exact g1

/-- The result of a completed read of a package. -/
def afterPackage (A : Aead) (d : Decryptor) (n : Nat) (c : Bytes) (sc : Script) : Outcome (Bytes × Reader) :=
  match A.dec d.key (nonceFromNumber d.count) c with
  | none => .err (.io .invalidData)
  | some p =>
    if n ≤ p.length then
      .ok (p.take n, { rs := { dec := { key := d.key, count := d.count + 1 }, remaining := p.drop n, fut := none }, script := sc })
    else .hang

theorem drive_reading_complete {A : Aead} {int closed : Bool} {d : Decryptor} {p rest : Bytes} (hp : complete p = true)
    {n : Nat} (hn : 0 < n) :
    ∀ (fuel : Nat) (cs : List Chunk) (acc y : Bytes), p = acc ++ y → y ≠ [] → acc ++ flat cs = p ++ rest → cs.length < fuel →
    ∃ cs', flat cs' = rest ∧
      drive A int fuel n [] { rs := { dec := d, remaining := [], fut := some (.reading acc) }, script := { chunks := cs, closed := closed } }
        = afterPackage A d n (p.drop 4) { chunks := cs', closed := closed } := by
  intro fuel
  induction fuel with
  | zero => intro cs acc y _ _ _ h; omega
  | succ fuel ih =>
    intro cs acc y hy hne h hf
    obtain ⟨m, rfl⟩ : ∃ m, n = m + 1 := ⟨n - 1, by omega⟩
    rcases pollPackage_complete (closed := closed) hp cs acc y hy hne h with ⟨acc', y', cs', g1, g2, g3, g4, g5⟩ | ⟨cs', g1, g2⟩
    · obtain ⟨cs'', e1, e2⟩ := ih cs' acc' y' g3 g4 g5 (by omega)
      refine ⟨cs'', e1, ?_⟩
      rw [← e2]
      conv => lhs; unfold drive
      simp only [ReadStream.pollRead, pollFutRead, g1]
      cases int <;> simp
    · refine ⟨cs', g2, ?_⟩
      unfold drive
      simp only [ReadStream.pollRead, pollFutRead, g1, Decryptor.decrypt, afterPackage]
      cases hd : A.dec d.key (nonceFromNumber d.count) (p.drop 4) with
      | none => simp
      | some q =>
        simp only [List.nil_append]
        by_cases hq : m + 1 ≤ q.length
        · simp [hq]
        · simp [hq]

theorem drive_reading_incomplete {A : Aead} {int closed : Bool} {d : Decryptor} {n : Nat} (hn : 0 < n) :
    ∀ (fuel : Nat) (cs : List Chunk) (acc : Bytes), Incomplete (acc ++ flat cs) → cs.length < fuel →
      drive A int fuel n [] { rs := { dec := d, remaining := [], fut := some (.reading acc) }, script := { chunks := cs, closed := closed } }
        = if closed then .err (.io .unexpectedEof) else .hang := by
  intro fuel
  induction fuel with
  | zero => intro cs acc _ h; omega
  | succ fuel ih =>
    intro cs acc h hf
    obtain ⟨m, rfl⟩ : ∃ m, n = m + 1 := ⟨n - 1, by omega⟩
    rcases pollPackage_incomplete (closed := closed) cs acc h with ⟨acc', cs', g1, g2, g3⟩ | ⟨g1, g2⟩
    · conv => lhs; unfold drive
      simp only [ReadStream.pollRead, pollFutRead, g1]
      have : drive A int fuel (m + 1) [] { rs := { dec := d, remaining := [], fut := some (.reading acc') }, script := { chunks := cs', closed := closed } }
          = if closed then .err (.io .unexpectedEof) else .hang := by
        rcases g2 with g2 | ⟨rfl, rfl⟩
        · exact ih cs' acc' g3 (by omega)
        · cases fuel with
          | zero => simp [drive]
          | succ f => exact ih [] acc' g3 (by simp)
      cases int <;> simpa using this
    · subst g2
      unfold drive
      simp only [ReadStream.pollRead, pollFutRead, g1, if_true]

theorem drive_start {A : Aead} {int closed : Bool} {d : Decryptor} {n fuel : Nat} (hn : 0 < n) (cs : List Chunk) :
    drive A int fuel n [] { rs := { dec := d, remaining := [], fut := none }, script := { chunks := cs, closed := closed } }
      = drive A int fuel n [] { rs := { dec := d, remaining := [], fut := some (.reading []) }, script := { chunks := cs, closed := closed } } := by
  obtain ⟨m, rfl⟩ : ∃ m, n = m + 1 := ⟨n - 1, by omega⟩
  cases fuel with
  | zero => simp [drive]
  | succ fuel =>
    conv => lhs; unfold drive
    conv => rhs; unfold drive
    simp [ReadStream.pollRead]

/-- Reading while there is plaintext left. -/
theorem drive_buffered {A : Aead} {int closed : Bool} {d : Decryptor} {n fuel : Nat} {rem : Bytes} (hn : n ≤ rem.length) (cs : List Chunk) :
    drive A int (fuel + 1) n [] { rs := { dec := d, remaining := rem, fut := none }, script := { chunks := cs, closed := closed } }
      = .ok (rem.take n, { rs := { dec := d, remaining := rem.drop n, fut := none }, script := { chunks := cs, closed := closed } }) := by
  cases n with
  | zero => simp [drive]
  | succ n =>
    unfold drive
    have : min (n + 1) rem.length = n + 1 := by omega
    simp [ReadStream.pollRead, this]

/-- A read of at least one byte on an idle read half, when the bytes to come start with a package. -/
theorem drive_package {A : Aead} {int closed : Bool} {d : Decryptor} {n : Nat} (hn : 0 < n) {cs : List Chunk} {p rest : Bytes}
    (hp : complete p = true) (h : flat cs = p ++ rest) :
    ∃ cs', flat cs' = rest ∧
      drive A int (cs.length + 2) n [] { rs := { dec := d, remaining := [], fut := none }, script := { chunks := cs, closed := closed } }
        = afterPackage A d n (p.drop 4) { chunks := cs', closed := closed } := by
  rw [drive_start hn]
  refine drive_reading_complete hp hn _ cs [] p rfl ?_ (by simpa using h) (by omega)
  rintro rfl
  simp [complete] at hp

theorem drive_cut {A : Aead} {int closed : Bool} {d : Decryptor} {n : Nat} (hn : 0 < n) {cs : List Chunk} (h : Incomplete (flat cs)) :
    drive A int (cs.length + 2) n [] { rs := { dec := d, remaining := [], fut := none }, script := { chunks := cs, closed := closed } }
      = if closed then .err (.io .unexpectedEof) else .hang := by
  rw [drive_start hn]
  exact drive_reading_incomplete hn _ cs [] (by simpa using h) (by omega)

/-- If every successful read of `T` can be followed by `S`, so can every successfully read event. -/
theorem fromAsyncRead_rel {σ τ : Type} {S : Source σ} {T : Source τ} (R : σ → τ → Prop)
    (hint : ∀ n s t x t', 0 < n → R s t → T.readInt n t = .ok (x, t') → ∃ s', S.readInt n s = .ok (x, s') ∧ R s' t')
    (hex : ∀ n s t x t', R s t → T.readExact n t = .ok (x, t') → ∃ s', S.readExact n s = .ok (x, s') ∧ R s' t')
    {checks : Bool} {s : σ} {t t' : τ} {e : Event} (hr : R s t) (h : Event.fromAsyncRead T checks t = .ok (e, t')) :
    ∃ s', Event.fromAsyncRead S checks s = .ok (e, s') ∧ R s' t' := by
  unfold Event.fromAsyncRead at h ⊢
  rw [Outcome.bind_eq_ok] at h
  obtain ⟨⟨a, t1⟩, h1, h⟩ := h
  obtain ⟨s1, k1, r1⟩ := hint _ _ _ _ _ (by omega) hr h1
  simp only [k1, Outcome.bind_ok]
  rw [Outcome.bind_eq_ok] at h
  obtain ⟨⟨b, t2⟩, h2, h⟩ := h
  obtain ⟨s2, k2, r2⟩ := hint _ _ _ _ _ (by omega) r1 h2
  simp only [k2, Outcome.bind_ok]
  rw [Outcome.bind_eq_ok] at h
  obtain ⟨dl, h3, h⟩ := h
  simp only [h3, Outcome.bind_ok]
  rw [Outcome.bind_eq_ok] at h
  obtain ⟨⟨hb, t3⟩, h4, h⟩ := h
  obtain ⟨s3, k3, r3⟩ := hex _ _ _ _ _ r2 h4
  simp only [k3, Outcome.bind_ok]
  rw [Outcome.bind_eq_ok] at h
  obtain ⟨⟨hd, hr'⟩, h5, h⟩ := h
  simp only [h5, Outcome.bind_ok]
  rw [Outcome.bind_eq_ok] at h
  obtain ⟨_, h6, h⟩ := h
  simp only [h6, Outcome.bind_ok]
  rw [Outcome.bind_eq_ok] at h
  obtain ⟨⟨bf, t4⟩, h7, h⟩ := h
  obtain ⟨s4, k4, r4⟩ := hex _ _ _ _ _ r3 h7
  simp only [k4, Outcome.bind_ok, Outcome.pure_eq]
  simp only [Outcome.pure_eq, Outcome.ok.injEq, Prod.mk.injEq] at h
  obtain ⟨h8, rfl⟩ := h
  exact ⟨s4, by rw [h8], r4⟩

/-- An idle read half: no plaintext left, no package begun. -/
def idle (d : Decryptor) (cs : List Chunk) (closed : Bool) : Reader :=
  { rs := { dec := d, remaining := [], fut := none }, script := { chunks := cs, closed := closed } }

/-- Before the first byte of a package with plaintext `p`, or after, with the plaintext `t` left. -/
def Follows (d : Decryptor) (closed : Bool) (p pkg rest : Bytes) (r : Reader) (t : Bytes) : Prop :=
  (t = p ∧ ∃ cs, flat cs = pkg ++ rest ∧ r = idle d cs closed) ∨
  (∃ cs, flat cs = rest ∧ r = { rs := { dec := { key := d.key, count := d.count + 1 }, remaining := t, fut := none }, script := { chunks := cs, closed := closed } })

theorem follows_drive {A : Aead} {d : Decryptor} {closed : Bool} {p pkg rest : Bytes} (hp : complete pkg = true)
    (hd : A.dec d.key (nonceFromNumber d.count) (pkg.drop 4) = some p) (int : Bool) {n : Nat} {r : Reader} {t x t' : Bytes}
    (hr : Follows d closed p pkg rest r t) (h : readExact n t = .ok (x, t')) :
    ∃ r', drive A int (r.script.chunks.length + 2) n [] r = .ok (x, r') ∧ Follows d closed p pkg rest r' t' := by
  unfold readExact at h
  split at h
  · rename_i hn
    simp only [Outcome.ok.injEq, Prod.mk.injEq] at h
    obtain ⟨rfl, rfl⟩ := h
    rcases hr with ⟨rfl, cs, hcs, rfl⟩ | ⟨cs, hcs, rfl⟩
    · cases n with
      | zero => exact ⟨_, by simp [drive, idle], Or.inl ⟨by simp, cs, hcs, rfl⟩⟩
      | succ n =>
        obtain ⟨cs', h1, h2⟩ := drive_package (A := A) (int := int) (closed := closed) (d := d) (n := n + 1) (by omega) hp hcs
        refine ⟨_, h2.trans ?_, Or.inr ⟨cs', h1, rfl⟩⟩
        simp only [afterPackage, hd]
        rw [if_pos hn]
    · exact ⟨_, drive_buffered hn cs, Or.inr ⟨cs, hcs, rfl⟩⟩
  · cases h

/-- An event that is the plaintext of the next package is read, whatever follows. -/
theorem read_sealed {A : Aead} {d : Decryptor} {closed checks : Bool} {cs : List Chunk} {e : Event} {frame pkg rest : Bytes}
    (hp : complete pkg = true) (hd : A.dec d.key (nonceFromNumber d.count) (pkg.drop 4) = some frame)
    (hf : Event.fromBytes checks frame = .ok (e, [])) (hne : frame ≠ []) (hcs : flat cs = pkg ++ rest) :
    ∃ cs', flat cs' = rest ∧
      Event.fromAsyncRead (cryptSource A) checks (idle d cs closed) = .ok (e, idle { key := d.key, count := d.count + 1 } cs' closed) := by
  obtain ⟨r', h1, h2⟩ := fromAsyncRead_rel (S := cryptSource A) (T := byteSource) (Follows d closed frame pkg rest)
    (fun n s t x t' _ hr h => follows_drive hp hd true hr h) (fun n s t x t' hr h => follows_drive hp hd false hr h)
    (Or.inl ⟨rfl, cs, hcs, rfl⟩) hf
  rcases h2 with ⟨h2, -⟩ | ⟨cs', h2, rfl⟩
  · exact absurd h2.symm hne
  · exact ⟨cs', h2, h1⟩

theorem read_cut {A : Aead} {d : Decryptor} {closed checks : Bool} {cs : List Chunk} (h : Incomplete (flat cs)) :
    Event.fromAsyncRead (cryptSource A) checks (idle d cs closed) = if closed then .err (.io .unexpectedEof) else .hang := by
  unfold Event.fromAsyncRead
  have := drive_cut (A := A) (int := true) (closed := closed) (d := d) (n := 8) (by omega) h
  have h2 : (cryptSource A).readInt 8 (idle d cs closed) = if closed then .err (.io .unexpectedEof) else .hang := this
  rw [h2]
  cases closed <;> simp

theorem read_undecipherable {A : Aead} {d : Decryptor} {closed checks : Bool} {cs : List Chunk} {pkg rest : Bytes}
    (hp : complete pkg = true) (hcs : flat cs = pkg ++ rest) (hd : A.dec d.key (nonceFromNumber d.count) (pkg.drop 4) = none) :
    Event.fromAsyncRead (cryptSource A) checks (idle d cs closed) = .err (.io .invalidData) := by
  obtain ⟨cs', h1, h2⟩ := drive_package (A := A) (int := true) (closed := closed) (d := d) (n := 8) (by omega) hp hcs
  unfold Event.fromAsyncRead
  have h2 : (cryptSource A).readInt 8 (idle d cs closed) = _ := h2
  rw [h2]
  simp [afterPackage, hd]

end Bromine.CryptIO
