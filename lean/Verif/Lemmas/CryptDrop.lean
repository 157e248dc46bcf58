import Verif.Lemmas.CryptBytes
/-
Emits on an encrypted connection that are dropped at any point: what is on the wire and in the buffer.
-/
namespace Bromine.Props
open Bromine Bromine.Spec Bromine.CryptIO Bromine.CryptWire Bromine.CryptBytes

/-- The frames of events, one after the other. -/
def framesOf (es : List Event) : Bytes := (es.map Wire.frame).flatten

/-- The state of the futures of a write half; `rem` is what is left to write of the current package. -/
def Shape (ws : WriteStream) (rem : Bytes) : Prop :=
  (ws.inner = true ∧ ws.cipher = true ∧ ws.futWrite = none ∧ ws.futFlush = none ∧ rem = []) ∨
  (ws.inner = false ∧ ws.cipher = false ∧ ws.futWrite = some rem ∧ ws.futFlush = none) ∨
  (ws.inner = false ∧ ws.cipher = false ∧ ws.futWrite = none ∧ ∃ f, ws.futFlush = some f ∧ remOf f = rem)

/-- `groups` are the events of the packages so far, `pend` those in the buffer. -/
structure DW (A : Aead) (key : Bytes) (ws : WriteStream) (wire : Bytes) (groups : List (List Event)) (pend : List Event) (rem : Bytes) : Prop where
  pkgs : Packages A key 0 (groups.map framesOf) (wire ++ rem)
  at_ : At key groups.length ws.enc
  buf : ws.buffer = framesOf pend
  short : ws.buffer.length < WRITE_BUF_SIZE
  shape : Shape ws rem
  ne : ∀ g ∈ groups, g ≠ []

/-- All events that are in packages or in the buffer. -/
def WI (A : Aead) (key : Bytes) (ws : WriteStream) (wire : Bytes) (es : List Event) : Prop :=
  ∃ groups pend rem, DW A key ws wire groups pend rem ∧ groups.flatten ++ pend = es

theorem framesOf_append (a b : List Event) : framesOf (a ++ b) = framesOf a ++ framesOf b := by simp [framesOf]

theorem fine_mono {as as' : List IoAns} (h : Fine as) (hs : ∀ a ∈ as', a ∈ as) : Fine as' := fun hb => h (hb.mono hs)

/-- Going on with a write. -/
theorem dw_futWrite {A : Aead} {key : Bytes} {ws : WriteStream} {wire rem : Bytes} {groups : List (List Event)} {pend : List Event} {as : List IoAns} {len : Nat}
    (hp : Packages A key 0 (groups.map framesOf) (wire ++ rem)) (ha : At key groups.length ws.enc) (hb : ws.buffer = framesOf pend)
    (hs : ws.buffer.length < WRITE_BUF_SIZE) (hne : ∀ g ∈ groups, g ≠ []) (hfl : ws.futFlush = none) (hi : ws.inner = false) (hc : ws.cipher = false) (hf : Fine as) :
    let r := pollFutWrite ws rem len as
    (∃ rem', DW A key r.ws (wire ++ r.wire) groups pend rem') ∧ (∀ b, r.poll = .pending b → r.ws.futWrite ≠ none) ∧
    ((∃ b, r.poll = .pending b) ∨ ∃ n, r.poll = .ready (.ok n)) ∧ ∀ a ∈ r.rest, a ∈ as := by
  simp only [pollFutWrite]
  match hq : pollWriteAll rem as with
  | (some (.ok ()), w, r', as') =>
    obtain ⟨h1, h2, -, h4⟩ := pollWriteAll_spec hq
    have h2 := h2 rfl
    subst h2; rw [List.append_nil] at h1; subst h1
    exact ⟨⟨[], by simpa using hp, ha, hb, hs, Or.inl ⟨rfl, rfl, rfl, hfl, rfl⟩, hne⟩, by simp [Except.map], Or.inr ⟨_, rfl⟩, h4⟩
  | (some (.error er), w, r', as') =>
    obtain ⟨-, -, h3, -⟩ := pollWriteAll_spec hq
    exact absurd (h3 er rfl) hf
  | (none, w, r', as') =>
    obtain ⟨h1, -, -, h4⟩ := pollWriteAll_spec hq
    subst h1
    exact ⟨⟨r', by simpa using hp, ha, hb, hs, Or.inr (Or.inl ⟨hi, hc, rfl, hfl⟩), hne⟩, by simp, Or.inl ⟨_, rfl⟩, h4⟩

/-- One poll of a write. -/
theorem dw_write {A : Aead} {key : Bytes} {ws : WriteStream} {wire : Bytes} {es : List Event} {e : Event} {as : List IoAns} (h : WI A key ws wire es) (hf : Fine as)
    (hsz : (Wire.frame e).length + WRITE_BUF_SIZE + 16 < 2 ^ 32) :
    let r := ws.pollWrite A (Wire.frame e) as
    ∃ es', WI A key r.ws (wire ++ r.wire) es' ∧ es'.Sublist (es ++ (if ws.futWrite = none then [e] else [])) ∧
      (∀ b, r.poll = .pending b → r.ws.futWrite ≠ none) ∧ (∀ x, r.poll ≠ .ready (.error x)) ∧ ∀ a ∈ r.rest, a ∈ as := by
  obtain ⟨groups, pend, rem, ⟨hp, hat, hb, hsh, hshape, hne⟩, rfl⟩ := h
  simp only [WriteStream.pollWrite]
  rcases hshape with ⟨i1, i2, i3, i4, rfl⟩ | ⟨i1, i2, i3, i4⟩ | ⟨i1, i2, i3, f, i4, i5⟩
  · simp only [i3, if_true]
    by_cases hbig : WRITE_BUF_SIZE ≤ (ws.buffer ++ Wire.frame e).length
    · rw [if_pos hbig]
      have hall : (ws.buffer ++ Wire.frame e).length ≤ u32Max := by
        rw [List.length_append]; unfold u32Max; unfold WRITE_BUF_SIZE at hsh hsz; omega
      simp only [List.take_of_length_le hall, List.drop_of_length_le hall, i1, i2, Bool.and_self, if_true]
      rw [List.append_nil] at hp
      obtain ⟨c, x', e1, e2, e3⟩ := encrypt_next (A := A) (key := key) (m := ws.buffer ++ Wire.frame e) (x := ws.enc) hp (by simpa using hat)
        (by rw [List.length_append]; omega)
      simp only [e1]
      have hm : ws.buffer ++ Wire.frame e = framesOf (pend ++ [e]) := by rw [hb, framesOf_append]; simp [framesOf]
      rw [hm] at e3
      have hne' : ∀ g ∈ groups ++ [pend ++ [e]], g ≠ [] := by
        intro g hg
        simp only [List.mem_append, List.mem_singleton] at hg
        rcases hg with hg | rfl
        · exact hne g hg
        · simp
      obtain ⟨⟨rem', k1⟩, k2, k3, k4⟩ := dw_futWrite (A := A) (key := key) (wire := wire) (rem := packageBytes c) (groups := groups ++ [pend ++ [e]]) (pend := [])
        (ws := { ws with buffer := [], enc := x', inner := false, cipher := false, futWrite := none }) (len := (Wire.frame e).length) (as := as)
        (by simpa using e3) (by simpa using e2) rfl (by simp [WRITE_BUF_SIZE]) hne' i4 rfl rfl hf
      refine ⟨_, ⟨_, _, rem', k1, rfl⟩, by simp, k2, ?_, k4⟩
      intro y hy
      rcases k3 with ⟨b, k3⟩ | ⟨n, k3⟩ <;> rw [k3] at hy <;> cases hy
    · rw [if_neg hbig]
      refine ⟨groups.flatten ++ (pend ++ [e]), ⟨groups, pend ++ [e], [], ⟨by simpa using hp, hat, ?_, by simpa using hbig, Or.inl ⟨i1, i2, (by first | rfl | exact i3), i4, rfl⟩, hne⟩, rfl⟩,
        by simp, by simp, by simp, fun a ha => ha⟩
      simp [hb, framesOf]
  · simp only [i3]
    obtain ⟨⟨rem', k1⟩, k2, k3, k4⟩ := dw_futWrite (A := A) (key := key) (len := (Wire.frame e).length) (as := as) hp hat hb hsh hne i4 i1 i2 hf
    refine ⟨_, ⟨_, _, rem', k1, rfl⟩, by simp, k2, ?_, k4⟩
    intro y hy
    rcases k3 with ⟨b, k3⟩ | ⟨n, k3⟩ <;> rw [k3] at hy <;> cases hy
  · simp only [i3, if_true]
    by_cases hbig : WRITE_BUF_SIZE ≤ (ws.buffer ++ Wire.frame e).length
    · rw [if_pos hbig]
      have hall : (ws.buffer ++ Wire.frame e).length ≤ u32Max := by
        rw [List.length_append]; unfold u32Max; unfold WRITE_BUF_SIZE at hsh hsz; omega
      simp only [List.drop_of_length_le hall, i1, i2, Bool.and_self, Bool.false_eq_true, if_false]
      refine ⟨groups.flatten ++ [], ⟨groups, [], rem, ⟨by simpa using hp, hat, rfl, by simp [WRITE_BUF_SIZE], Or.inr (Or.inr ⟨(by first | rfl | exact i1), (by first | rfl | exact i2), (by first | rfl | exact i3), f, i4, i5⟩), hne⟩, rfl⟩,
        by simp, by simp, by simp, fun a ha => ha⟩
    · rw [if_neg hbig]
      refine ⟨groups.flatten ++ (pend ++ [e]), ⟨groups, pend ++ [e], rem, ⟨by simpa using hp, hat, ?_, by simpa using hbig, Or.inr (Or.inr ⟨(by first | rfl | exact i1), (by first | rfl | exact i2), (by first | rfl | exact i3), f, i4, i5⟩), hne⟩, rfl⟩,
        by simp, by simp, by simp, fun a ha => ha⟩
      simp [hb, framesOf]

/-- Going on with the flush of the transport. -/
theorem dw_futFlush {A : Aead} {key : Bytes} {ws : WriteStream} {wire : Bytes} {groups : List (List Event)} {pend : List Event} {as : List IoAns}
    (hp : Packages A key 0 (groups.map framesOf) wire) (ha : At key groups.length ws.enc) (hb : ws.buffer = framesOf pend)
    (hs : ws.buffer.length < WRITE_BUF_SIZE) (hne : ∀ g ∈ groups, g ≠ []) (hfw : ws.futWrite = none) (hi : ws.inner = false) (hc : ws.cipher = false) (hf : Fine as) :
    let r := pollFutFlush ws as
    (∃ rem', DW A key r.ws wire groups pend rem') ∧ r.wire = [] ∧ ∀ x, r.poll ≠ .ready (.error x) := by
  cases as with
  | nil => exact ⟨⟨[], by simpa using hp, ha, hb, hs, Or.inr (Or.inr ⟨hi, hc, hfw, _, rfl, rfl⟩), hne⟩, rfl, by simp [pollFutFlush]⟩
  | cons a as =>
    cases a with
    | pending => exact ⟨⟨[], by simpa using hp, ha, hb, hs, Or.inr (Or.inr ⟨hi, hc, hfw, _, rfl, rfl⟩), hne⟩, rfl, by simp [pollFutFlush]⟩
    | fail er => exact absurd (Or.inl ⟨er, by simp⟩) hf
    | ready n => exact ⟨⟨[], by simpa using hp, ha, hb, hs, Or.inl ⟨rfl, rfl, hfw, rfl, rfl⟩, hne⟩, rfl, by simp [pollFutFlush]⟩

theorem dw_flushWrite {A : Aead} {key : Bytes} {ws : WriteStream} {wire rem : Bytes} {groups : List (List Event)} {pend : List Event} {as : List IoAns}
    (hp : Packages A key 0 (groups.map framesOf) (wire ++ rem)) (ha : At key groups.length ws.enc) (hb : ws.buffer = framesOf pend)
    (hs : ws.buffer.length < WRITE_BUF_SIZE) (hne : ∀ g ∈ groups, g ≠ []) (hfw : ws.futWrite = none) (hi : ws.inner = false) (hc : ws.cipher = false) (hf : Fine as) :
    let r := pollFlushWrite ws rem as
    (∃ rem', DW A key r.ws (wire ++ r.wire) groups pend rem') ∧ ∀ x, r.poll ≠ .ready (.error x) := by
  simp only [pollFlushWrite]
  match hq : pollWriteAll rem as with
  | (some (.ok ()), w, r', as') =>
    obtain ⟨h1, h2, -, h4⟩ := pollWriteAll_spec hq
    have h2 := h2 rfl
    subst h2; rw [List.append_nil] at h1; subst h1
    obtain ⟨k1, k2, k3⟩ := dw_futFlush (A := A) (key := key) (wire := wire ++ rem) hp ha hb hs hne hfw hi hc (fine_mono hf h4)
    exact ⟨k1, k3⟩
  | (some (.error er), w, r', as') =>
    obtain ⟨-, -, h3, -⟩ := pollWriteAll_spec hq
    exact absurd (h3 er rfl) hf
  | (none, w, r', as') =>
    obtain ⟨h1, -, -, h4⟩ := pollWriteAll_spec hq
    subst h1
    exact ⟨⟨r', by simpa using hp, ha, hb, hs, Or.inr (Or.inr ⟨hi, hc, hfw, _, rfl, rfl⟩), hne⟩, by simp⟩

theorem framesOf_pos {pend : List Event} (h : 0 < (framesOf pend).length) : pend ≠ [] := by
  rintro rfl; simp [framesOf] at h

/-- One poll of a flush. -/
theorem dw_flush {A : Aead} {key : Bytes} {ws : WriteStream} {wire : Bytes} {es : List Event} {as : List IoAns} (h : WI A key ws wire es) (hf : Fine as) :
    let r := ws.pollFlush A as
    ∃ es', WI A key r.ws (wire ++ r.wire) es' ∧ es'.Sublist es ∧ ∀ x, r.poll ≠ .ready (.error x) := by
  obtain ⟨groups, pend, rem, ⟨hp, hat, hb, hsh, hshape, hne⟩, rfl⟩ := h
  have hall : ws.buffer.length ≤ u32Max := by unfold u32Max; unfold WRITE_BUF_SIZE at hsh; omega
  simp only [WriteStream.pollFlush]
  rcases hshape with ⟨i1, i2, i3, i4, rfl⟩ | ⟨i1, i2, i3, i4⟩ | ⟨i1, i2, i3, f, i4, i5⟩
  · simp only [i4, List.take_of_length_le hall, List.drop_of_length_le hall, i1, i2, Bool.and_self, if_true]
    rw [List.append_nil] at hp
    by_cases hpos : 0 < ws.buffer.length
    · rw [if_pos hpos]
      obtain ⟨c, x', e1, e2, e3⟩ := encrypt_next (A := A) (key := key) (m := ws.buffer) (x := ws.enc) hp (by simpa using hat)
        (by unfold WRITE_BUF_SIZE at hsh; omega)
      simp only [e1]
      rw [hb] at e3
      have hne' : ∀ g ∈ groups ++ [pend], g ≠ [] := by
        intro g hg
        simp only [List.mem_append, List.mem_singleton] at hg
        rcases hg with hg | rfl
        · exact hne g hg
        · exact framesOf_pos (by rw [← hb]; exact hpos)
      obtain ⟨⟨rem', k1⟩, k2⟩ := dw_flushWrite (A := A) (key := key) (wire := wire) (rem := packageBytes c) (groups := groups ++ [pend]) (pend := [])
        (ws := { ws with buffer := [], enc := x', inner := false, cipher := false }) (as := as)
        (by simpa using e3) (by simpa using e2) rfl (by simp [WRITE_BUF_SIZE]) hne' i3 rfl rfl hf
      exact ⟨_, ⟨_, _, rem', k1, rfl⟩, by simp, k2⟩
    · rw [if_neg hpos]
      have hnil : ws.buffer = [] := List.eq_nil_of_length_eq_zero (by omega)
      obtain ⟨⟨rem', k1⟩, k2, k3⟩ := dw_futFlush (A := A) (key := key) (wire := wire) (groups := groups) (pend := pend) (as := as)
        (ws := { ws with buffer := [], inner := false, cipher := false, futFlush := none }) hp hat (by rw [← hb, hnil]) (by simp [WRITE_BUF_SIZE]) hne i3 rfl rfl hf
      refine ⟨_, ⟨_, _, rem', ?_, rfl⟩, List.Sublist.refl _, k3⟩
      rw [k2, List.append_nil]; exact k1
  · simp only [i4, i1, Bool.false_and, Bool.false_eq_true, if_false, List.drop_of_length_le hall]
    exact ⟨groups.flatten ++ [], ⟨groups, [], rem, ⟨by simpa using hp, hat, rfl, by simp [WRITE_BUF_SIZE], Or.inr (Or.inl ⟨(by first | rfl | exact i1), (by first | rfl | exact i2), (by first | rfl | exact i3), (by first | rfl | exact i4)⟩), hne⟩, rfl⟩, by simp, by simp⟩
  · simp only [i4]
    cases f with
    | writing r0 =>
      have i5 : r0 = rem := i5
      subst i5
      obtain ⟨⟨rem', k1⟩, k2⟩ := dw_flushWrite (A := A) (key := key) hp hat hb hsh hne i3 i1 i2 hf
      exact ⟨_, ⟨_, _, rem', k1, rfl⟩, List.Sublist.refl _, k2⟩
    | flushing =>
      have i5 : [] = rem := i5
      subst i5
      rw [List.append_nil] at hp
      obtain ⟨⟨rem', k1⟩, k2, k3⟩ := dw_futFlush (A := A) (key := key) hp hat hb hsh hne i3 i1 i2 hf
      refine ⟨_, ⟨_, _, rem', ?_, rfl⟩, List.Sublist.refl _, k3⟩
      rw [k2, List.append_nil]; exact k1

/-- The invariant of a connection with emits that are dropped at any point. -/
structure DInv (A : Aead) (key : Bytes) (s : State) : Prop where
  holder : ∀ (u : Nat) (e : Event), Holds (s.tasks u) e → s.lock = some u
  last : ∀ (u : Nat), s.lock = some u → ∃ lg e, s.log = lg ++ [(u, e)] ∧ Holds (s.tasks u) e
  taken : ∃ es, WI A key s.ws s.wire es ∧ es.Sublist (s.log.map Prod.snd) ∧
    ∀ u e, s.tasks u = some (.writing e) → s.ws.futWrite = none → es.Sublist (s.log.dropLast.map Prod.snd)

theorem dinv_init (A : Aead) (key : Bytes) (log : List Encryption := []) : DInv A key (init key log) where
  holder := by simp [init, Holds]
  last := by simp [init]
  taken := ⟨[], ⟨[], [], [], ⟨rfl, ⟨rfl, rfl⟩, rfl, by simp [init, WRITE_BUF_SIZE], Or.inl ⟨rfl, rfl, rfl, rfl, rfl⟩, by simp⟩, rfl⟩, by simp, by simp [init]⟩

/-- No answer of the transport is a failure. -/
def FineOp : Op → Prop
  | .poll _ as => Fine as
  | _ => True

theorem dinv_flushStage {A : Aead} {key : Bytes} {s : State} {t : Nat} {e : Event} {ws : WriteStream} {wire : Bytes} {as : List IoAns} {es : List Event}
    (hh : Holds (s.tasks t) e) (h : DInv A key s) (hw : WI A key ws wire es) (hsub : es.Sublist (s.log.map Prod.snd)) (hf : Fine as) :
    DInv A key (pollFlushStage A s t e ws wire as) := by
  have hl := h.holder t e hh
  obtain ⟨es', k1, k2, k3⟩ := dw_flush hw hf
  have hoth : ∀ u e', u ≠ t → ¬ Holds (s.tasks u) e' := by
    intro u e' hu hk
    have := h.holder u e' hk
    rw [hl] at this; cases this; exact hu rfl
  obtain ⟨lg, e0, g1, g2⟩ := h.last t hl
  obtain rfl := hh.unique g2
  simp only [pollFlushStage]
  split
  · refine ⟨fun u e' hu => ?_, fun u hu => ?_, es', k1, k2.trans hsub, fun u e' hu => ?_⟩
    · by_cases hut : u = t
      · subst hut; exact hl
      · exact absurd (by simpa [Wire.set, hut] using hu) (hoth u e' hut)
    · have hu : s.lock = some u := hu
      rw [hl] at hu; cases hu
      exact ⟨lg, e, g1, Or.inr (by simp [Wire.set])⟩
    · by_cases hut : u = t
      · subst hut; simp [Wire.set] at hu
      · exact absurd (Or.inl (by simpa [Wire.set, hut] using hu)) (hoth u e' hut)
  all_goals
    refine ⟨fun u e' hu => ?_, fun u hu => by simp at hu, es', k1, k2.trans hsub, fun u e' hu => ?_⟩
    · by_cases hut : u = t
      · subst hut; simp [Wire.set, Holds] at hu
      · exact absurd (by simpa [Wire.set, hut] using hu) (hoth u e' hut)
    · by_cases hut : u = t
      · subst hut; simp [Wire.set] at hu
      · exact absurd (Or.inl (by simpa [Wire.set, hut] using hu)) (hoth u e' hut)

theorem dinv_step {A : Aead} {key : Bytes} {s s' : State} {op : Op} (h : DInv A key s) (hop : FineOp op)
    (hsz : ∀ t e, (t, e) ∈ s.log → (Wire.frame e).length + WRITE_BUF_SIZE + 16 < 2 ^ 32) (hs : step A s op = some s') : DInv A key s' := by
  cases op with
  | start t e =>
    simp only [step] at hs
    split at hs
    · rename_i ht
      cases hs
      have heq : ∀ u st, st ≠ some (Stage.waiting e) → Wire.set s.tasks t (some (.waiting e)) u = st → u ≠ t → s.tasks u = st := by
        intro u st _ hu hut; simpa [Wire.set, hut] using hu
      refine ⟨fun u e' hu => ?_, fun u hu => ?_, ?_⟩
      · by_cases hut : u = t
        · subst hut; simp [Wire.set, Holds] at hu
        · exact h.holder u e' (by simpa [Wire.set, hut] using hu)
      · obtain ⟨lg, e0, g1, g2⟩ := h.last u hu
        refine ⟨lg, e0, g1, ?_⟩
        have hut : u ≠ t := by rintro rfl; rcases g2 with g2 | g2 <;> rw [ht] at g2 <;> cases g2
        simpa [Wire.set, hut] using g2
      · obtain ⟨es, k1, k2, k3⟩ := h.taken
        refine ⟨es, k1, k2, fun u e' hu => ?_⟩
        by_cases hut : u = t
        · subst hut; simp [Wire.set] at hu
        · exact k3 u e' (by simpa [Wire.set, hut] using hu)
    · cases hs
  | lock t =>
    simp only [step] at hs
    split at hs
    · rename_i e ht hl
      cases hs
      have hno : ∀ u e', ¬ Holds (s.tasks u) e' := by
        intro u e' hk
        have := h.holder u e' hk
        rw [hl] at this; cases this
      obtain ⟨es, k1, k2, -⟩ := h.taken
      refine ⟨fun u e' hu => ?_, fun u hu => ?_, es, k1, ?_, fun u e' hu _ => ?_⟩
      · by_cases hut : u = t
        · subst hut; rfl
        · exact absurd (by simpa [Wire.set, hut] using hu) (hno u e')
      · have hu : some t = some u := hu
        cases hu
        exact ⟨s.log, e, rfl, Or.inl (by simp [Wire.set])⟩
      · rw [List.map_append]; exact k2.trans (List.sublist_append_left _ _)
      · simpa using k2
    · cases hs
  | drop t =>
    simp only [step] at hs
    obtain ⟨es, k1, k2, k3⟩ := h.taken
    split at hs
    · rename_i e ht
      cases hs
      refine ⟨fun u e' hu => ?_, fun u hu => ?_, es, k1, k2, fun u e' hu => ?_⟩
      · by_cases hut : u = t
        · subst hut; simp [Wire.set, Holds] at hu
        · exact h.holder u e' (by simpa [Wire.set, hut] using hu)
      · obtain ⟨lg, e0, g1, g2⟩ := h.last u hu
        refine ⟨lg, e0, g1, ?_⟩
        have hut : u ≠ t := by rintro rfl; rcases g2 with g2 | g2 <;> rw [ht] at g2 <;> cases g2
        simpa [Wire.set, hut] using g2
      · by_cases hut : u = t
        · subst hut; simp [Wire.set] at hu
        · exact k3 u e' (by simpa [Wire.set, hut] using hu)
    all_goals first | (cases hs; done) | skip
    all_goals
      rename_i e ht
      cases hs
      have hl := h.holder t e (by simp [Holds, ht])
      have hoth : ∀ u e', u ≠ t → ¬ Holds (s.tasks u) e' := by
        intro u e' hu hk
        have := h.holder u e' hk
        rw [hl] at this; cases this; exact hu rfl
      refine ⟨fun u e' hu => ?_, fun u hu => by simp at hu, es, k1, k2, fun u e' hu => ?_⟩
      · by_cases hut : u = t
        · subst hut; simp [Wire.set, Holds] at hu
        · exact absurd (by simpa [Wire.set, hut] using hu) (hoth u e' hut)
      · by_cases hut : u = t
        · subst hut; simp [Wire.set] at hu
        · exact absurd (Or.inl (by simpa [Wire.set, hut] using hu)) (hoth u e' hut)
  | poll t as =>
    have hf : Fine as := hop
    simp only [step] at hs
    split at hs
    · rename_i e ht
      cases hs
      have hh : Holds (s.tasks t) e := Or.inl ht
      have hl := h.holder t e hh
      have hoth : ∀ u e', u ≠ t → ¬ Holds (s.tasks u) e' := by
        intro u e' hu hk
        have := h.holder u e' hk
        rw [hl] at this; cases this; exact hu rfl
      obtain ⟨lg, e0, g1, g2⟩ := h.last t hl
      obtain rfl := hh.unique g2
      obtain ⟨es, k1, k2, k3⟩ := h.taken
      obtain ⟨es', m1, m2, m3, m4, m5⟩ := dw_write (e := e) k1 hf (hsz t e (by rw [g1]; simp))
      have hsub : es'.Sublist (s.log.map Prod.snd) := by
        refine m2.trans ?_
        by_cases hn : s.ws.futWrite = none
        · rw [if_pos hn]
          have := k3 t e ht hn
          rw [g1] at this ⊢
          simp only [List.dropLast_concat, List.map_append, List.map_cons, List.map_nil] at this ⊢
          exact List.Sublist.append this (List.Sublist.refl _)
        · rw [if_neg hn, List.append_nil]; exact k2
      simp only [pollWriteStage]
      split
      · rename_i b hpend
        refine ⟨fun u e' hu => ?_, fun u hu => ?_, es', m1, hsub, fun u e' hu hn => absurd hn (m3 b hpend)⟩
        · by_cases hut : u = t
          · subst hut; exact hl
          · exact absurd (by simpa [Wire.set, hut] using hu) (hoth u e' hut)
        · have hu : s.lock = some u := hu
          rw [hl] at hu; cases hu
          exact ⟨lg, e, g1, Or.inl (by simp [Wire.set])⟩
      · exact dinv_flushStage hh h m1 hsub (fine_mono hf m5)
      · refine ⟨fun u e' hu => ?_, fun u hu => by simp at hu, es', m1, hsub, fun u e' hu => ?_⟩
        · by_cases hut : u = t
          · subst hut; simp [Wire.set, Holds] at hu
          · exact absurd (by simpa [Wire.set, hut] using hu) (hoth u e' hut)
        · by_cases hut : u = t
          · subst hut; simp [Wire.set] at hu
          · exact absurd (Or.inl (by simpa [Wire.set, hut] using hu)) (hoth u e' hut)
    · rename_i e ht
      cases hs
      obtain ⟨es, k1, k2, k3⟩ := h.taken
      exact dinv_flushStage (Or.inr ht) h k1 k2 hf
    · cases hs

theorem log_mono {A : Aead} {s s' : State} {op : Op} (hs : step A s op = some s') : s.log <+: s'.log := by
  cases op with
  | start t e => simp only [step] at hs; split at hs <;> cases hs; exact List.prefix_refl _
  | lock t => simp only [step] at hs; split at hs <;> cases hs; exact List.prefix_append _ _
  | drop t => simp only [step] at hs; split at hs <;> cases hs <;> exact List.prefix_refl _
  | poll t as => obtain ⟨e, -, h2, -⟩ := poll_shape hs; rw [h2]; exact List.prefix_refl _

theorem log_mono_run {A : Aead} {s s' : State} {ops : List Op} (hr : run A s ops = some s') : s.log <+: s'.log := by
  induction ops generalizing s with
  | nil => cases hr; exact List.prefix_refl _
  | cons op ops ih =>
    simp only [run, Option.bind_eq_some_iff] at hr
    obtain ⟨s1, h1, h2⟩ := hr
    exact (log_mono h1).trans (ih h2)

theorem dinv_run {A : Aead} {key : Bytes} {s s' : State} {ops : List Op} (h : DInv A key s) (hop : ∀ op ∈ ops, FineOp op)
    (hr : run A s ops = some s') (hsz : ∀ t e, (t, e) ∈ s'.log → (Wire.frame e).length + WRITE_BUF_SIZE + 16 < 2 ^ 32) : DInv A key s' := by
  induction ops generalizing s with
  | nil => cases hr; exact h
  | cons op ops ih =>
    simp only [run, Option.bind_eq_some_iff] at hr
    obtain ⟨s1, h1, h2⟩ := hr
    refine ih (dinv_step h (hop op (by simp)) (fun t e hin => hsz t e ?_) h1) (fun o ho => hop o (by simp [ho])) h2
    exact (log_mono_run h2).subset ((log_mono h1).subset hin)

end Bromine.Props
