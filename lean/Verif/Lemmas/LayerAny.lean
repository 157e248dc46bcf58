import Verif.Lemmas.LayerFail
import Verif.Lemmas.Ledger
import Verif.Spec.LayerAny
/-
Emits that are dropped and emits that fail, on the same connection with encrypted layers.
-/
namespace Bromine.Layers
open Bromine CryptIO Spec Props

section
variable {τ : Type} {T : WriteT τ Socket} (S : Sends T) (A : Aead) (l : Layer)

/-- The whole of package number `i` with these events. -/
abbrev whole (i : Nat) (g : List Event) : Bytes := S.wrap i (pkg A l i (framesOf g))

/-- `parts` is what is on the wire of the packages with these events: all of it, unless the package is broken. -/
def Parts (broken : List Nat) (groups : List (List Event)) (parts : List Bytes) : Prop :=
  parts.length = groups.length ∧ ∀ (i : Nat) (g : List Event) (p : Bytes), groups[i]? = some g → parts[i]? = some p → p <+: whole S A l i g ∧ (i ∉ broken → p = whole S A l i g)

variable {S A l}

theorem Parts.snoc {broken : List Nat} {gs : List (List Event)} {parts : List Bytes} {g : List Event} {p : Bytes} (h : Parts S A l broken gs parts) (hp : p <+: whole S A l gs.length g)
    (hw : gs.length ∉ broken → p = whole S A l gs.length g) : Parts S A l broken (gs ++ [g]) (parts ++ [p]) := by
  obtain ⟨h1, h2⟩ := h
  refine ⟨by simp [h1], fun i g' p' hg hp' => ?_⟩
  by_cases hi : i < gs.length
  · rw [List.getElem?_append_left hi] at hg
    rw [List.getElem?_append_left (by omega)] at hp'
    exact h2 i g' p' hg hp'
  · have hlt := (List.getElem?_eq_some_iff.1 hg).1
    simp only [List.length_append, List.length_singleton] at hlt
    obtain rfl : i = gs.length := by omega
    rw [List.getElem?_concat_length] at hg
    cases hg
    rw [← h1, List.getElem?_concat_length] at hp'
    cases hp'
    exact ⟨hp, hw⟩

theorem Parts.mono {broken broken' : List Nat} {gs : List (List Event)} {parts : List Bytes} (h : Parts S A l broken gs parts) (hb : broken ⊆ broken') : Parts S A l broken' gs parts :=
  ⟨h.1, fun i g p hg hp => ⟨(h.2 i g p hg hp).1, fun hn => (h.2 i g p hg hp).2 fun hm => hn (hb hm)⟩⟩

variable (S A l)

/-- In the middle of the package with the events `g`: `r` is left of it. -/
def Mid (broken : List Nat) (gs : List (List Event)) (g : List Event) (wire r : Bytes) : Prop :=
  ∃ parts part, Parts S A l broken gs parts ∧ wire = parts.flatten ++ part ∧ part ++ r = whole S A l gs.length g

variable {S A l}

theorem Mid.adv {broken : List Nat} {gs : List (List Event)} {g : List Event} {s s' : Socket} {r r' : Bytes} (h : Mid S A l broken gs g s.wire r) (ha : Adv s s' r r') : Mid S A l broken gs g s'.wire r' := by
  obtain ⟨parts, part, h1, h2, h3⟩ := h
  obtain ⟨⟨d, e1, e2⟩, -⟩ := ha
  exact ⟨parts, part ++ d, h1, by rw [e2, h2, List.append_assoc], by rw [← h3, e1, List.append_assoc]⟩

theorem Mid.done {broken : List Nat} {gs : List (List Event)} {g : List Event} {wire : Bytes} (h : Mid S A l broken gs g wire []) : ∃ parts, Parts S A l broken (gs ++ [g]) parts ∧ wire = parts.flatten := by
  obtain ⟨parts, part, h1, h2, h3⟩ := h
  rw [List.append_nil] at h3
  exact ⟨parts ++ [part], h1.snoc ⟨[], by rw [h3, List.append_nil]⟩ fun _ => h3, by rw [h2]; simp⟩

theorem Mid.torn {broken : List Nat} {gs : List (List Event)} {g : List Event} {wire r : Bytes} (h : Mid S A l broken gs g wire r) :
    ∃ parts, Parts S A l (broken ++ [gs.length]) (gs ++ [g]) parts ∧ wire = parts.flatten := by
  obtain ⟨parts, part, h1, h2, h3⟩ := h
  exact ⟨parts ++ [part], (h1.mono (List.subset_append_left _ _)).snoc ⟨r, h3⟩ fun hn => absurd (by simp) hn, by rw [h2]; simp⟩

theorem Mid.begin {broken : List Nat} {gs : List (List Event)} (g : List Event) {wire : Bytes} {parts : List Bytes} (h : Parts S A l broken gs parts) (hw : wire = parts.flatten) :
    Mid S A l broken gs g wire (whole S A l gs.length g) := ⟨parts, [], h, by simp [hw], rfl⟩

variable (S A l)

/-- The futures of the outermost layer. -/
inductive FShape (broken : List Nat) : List (List Event) → WriteStream × τ → Prop
  | idle {gs lg buf t parts} : Logged l gs.length lg → S.idle gs.length t → Parts S A l broken gs parts → (T.base t).wire = parts.flatten → FShape broken gs ({ enc := encAt l gs.length lg, buffer := buf }, t)
  | writing {gs g lg rem t r} : Logged l (gs.length + 1) lg → S.writing gs.length (pkg A l gs.length (framesOf g)) rem t r → Mid S A l broken gs g (T.base t).wire r →
      FShape broken (gs ++ [g]) ({ enc := encAt l (gs.length + 1) lg, inner := false, cipher := false, futWrite := some rem }, t)
  | flushWriting {gs g lg buf rem t r} : Logged l (gs.length + 1) lg → S.writing gs.length (pkg A l gs.length (framesOf g)) rem t r → Mid S A l broken gs g (T.base t).wire r →
      FShape broken (gs ++ [g]) ({ enc := encAt l (gs.length + 1) lg, buffer := buf, inner := false, cipher := false, futFlush := some (.writing rem) }, t)
  | flushing {gs g lg buf t r} : Logged l (gs.length + 1) lg → S.flushing gs.length (pkg A l gs.length (framesOf g)) t r → Mid S A l broken gs g (T.base t).wire r →
      FShape broken (gs ++ [g]) ({ enc := encAt l (gs.length + 1) lg, buffer := buf, inner := false, cipher := false, futFlush := some .flushing }, t)

/-- `groups` are the events of the packages so far, `pend` those in the buffer of the outermost layer. -/
structure FGood (broken : List Nat) (groups : List (List Event)) (pend : List Event) (s : WriteStream × τ) : Prop where
  shape : FShape S A l broken groups s
  buf : s.1.buffer = framesOf pend
  short : (framesOf pend).length < WRITE_BUF_SIZE
  fits : pend ≠ [] → LOk S (framesOf pend).length
  ne : ∀ g ∈ groups, g ≠ [] ∧ LOk S (framesOf g).length

/-- A write has just been finished: the package of the last of the groups is in the hands of the transport. -/
structure FWritten (broken : List Nat) (groups : List (List Event)) (s : WriteStream × τ) : Prop where
  shape : ∃ gs g lg t r, groups = gs ++ [g] ∧ s = ({ enc := encAt l (gs.length + 1) lg }, t) ∧ Logged l (gs.length + 1) lg ∧ S.writing gs.length (pkg A l gs.length (framesOf g)) [] t r ∧
    Mid S A l broken gs g (T.base t).wire r
  ne : ∀ g ∈ groups, g ≠ [] ∧ LOk S (framesOf g).length

/-- The emit has come to its flush. -/
def FCanFlush (broken : List Nat) (groups : List (List Event)) (pend : List Event) (s : WriteStream × τ) : Prop :=
  (FGood S A l broken groups pend s ∧ s.1.futWrite = none ∧ (s.1.futFlush ≠ none ∨ pend ≠ [])) ∨ (pend = [] ∧ FWritten S A l broken groups s)

variable {S A l}

theorem FGood.set {broken : List Nat} {groups : List (List Event)} {pend : List Event} {s : WriteStream × τ} (h : FGood S A l broken groups pend s) (as : List IoAns) :
    FGood S A l broken groups pend (s.1, T.setBase s.2 { answers := as, wire := (T.base s.2).wire }) := by
  obtain ⟨h1, hb, hs, hf, hn⟩ := h
  refine ⟨?_, hb, hs, hf, hn⟩
  cases h1 with
  | idle g1 g2 g3 g4 => exact .idle g1 (S.idle_set _ g2) g3 (by rw [S.base_set]; exact g4)
  | writing g1 g2 g3 => exact .writing g1 (S.writing_set _ g2) (by rw [S.base_set]; exact g3)
  | flushWriting g1 g2 g3 => exact .flushWriting g1 (S.writing_set _ g2) (by rw [S.base_set]; exact g3)
  | flushing g1 g2 g3 => exact .flushing g1 (S.flushing_set _ g2) (by rw [S.base_set]; exact g3)

/-- While a package of a write is under way there is no flush and nothing in the buffer. -/
theorem FGood.in_write {broken : List Nat} {groups : List (List Event)} {pend : List Event} {s : WriteStream × τ} (h : FGood S A l broken groups pend s) (hn : s.1.futWrite ≠ none) : s.1.futFlush = none ∧ pend = [] := by
  obtain ⟨h1, hb, -, hfi, -⟩ := h
  cases h1 with
  | idle => simp at hn
  | flushWriting => simp at hn
  | flushing => simp at hn
  | writing =>
    refine ⟨rfl, ?_⟩
    cases pend with
    | nil => rfl
    | cons x xs =>
      have := (hfi (by simp)).1
      rw [← hb] at this
      simp at this

/-- Bytes have gone to the wire, or the socket has not been asked; answers that are left have been there before. -/
def FKept (T : WriteT τ Socket) (s0 : Socket) (t : τ) : Prop := Kept T s0 t ∧ (T.base t).answers <:+ s0.answers

theorem FKept.fails {s0 : Socket} {t : τ} {e : IoErr} (h : FKept T s0 t) (hf : Fails (T.base t).answers e) : Fails s0.answers e :=
  hf.imp (h.2.subset ·) fun g => ⟨g.1, h.2.subset g.2⟩

/-- The last package is broken. -/
abbrev broke (broken : List Nat) (groups : List (List Event)) : List Nat := broken ++ [groups.length - 1]

/-- What a poll to write leads to; `why` is when it panics; `fl` the future of a flush, which it does not touch. -/
inductive FWrote (s0 : Socket) (why : Prop) (fl : Option FlushFut) (broken : List Nat) (groups : List (List Event)) (pend : List Event) (len : Nat) : Poll Nat × WriteStream × τ → Prop
  | pending {s} : FGood S A l broken groups pend s → s.1.futWrite ≠ none → ¬ why → Grew T s0 s.2 → FWrote s0 why fl broken groups pend len (.pending true, s)
  | ready {s} : FCanFlush S A l broken groups pend s → s.1.futFlush = fl → ¬ why → FKept T s0 s.2 → FWrote s0 why fl broken groups pend len (.ready (.ok len), s)
  | error {s e} : FGood S A l (broke broken groups) groups pend s → pend = [] → s.1.futWrite = none → s.1.futFlush = none → ¬ why → Fails s0.answers e → FWrote s0 why fl broken groups pend len (.ready (.error e), s)
  | panic {s} : FGood S A l broken groups pend s → s.1.futWrite = none → s.1.futFlush = fl → why → T.base s.2 = s0 → FWrote s0 why fl broken groups pend len (.panic, s)

theorem broke_snoc (broken : List Nat) (gs : List (List Event)) (g : List Event) : broke broken (gs ++ [g]) = broken ++ [gs.length] := by simp [broke]

/-- Going on with a write. -/
theorem any_futWrite (hR : Recovers S) {why : Prop} (hy : ¬ why) {broken : List Nat} {gs : List (List Event)} {g : List Event} {lg : List Encryption} {fu : Option Bytes} {rem : Bytes} {t : τ} {r : Bytes} (len : Nat)
    (hlg : Logged l (gs.length + 1) lg) (h : S.writing gs.length (pkg A l gs.length (framesOf g)) rem t r) (hw : Mid S A l broken gs g (T.base t).wire r)
    (hn : ∀ x ∈ gs ++ [g], x ≠ [] ∧ LOk S (framesOf x).length) :
    FWrote (S := S) (A := A) (l := l) (T.base t) why none broken (gs ++ [g]) [] len (pollFutWrite T { enc := encAt l (gs.length + 1) lg, inner := false, cipher := false, futWrite := fu } t rem len) := by
  have hp := S.writeAll _ (Nat.le_refl _) h
  have hre := fun {e rem' t'} => hR.writeAll (e := e) (rem' := rem') (t' := t') _ (Nat.le_refl _) h
  unfold pollFutWrite
  generalize Layers.writeAll T t rem = x at hp hre
  cases hp with
  | @error e x r' hb hd =>
    obtain ⟨rem', t'⟩ := x
    obtain ⟨parts, h1, h2⟩ := (hw.adv hd).torn
    refine .error ⟨?_, rfl, by decide, by simp, hn⟩ rfl rfl rfl hy hb
    rw [broke_snoc]
    have hl : gs.length + 1 = (gs ++ [g]).length := by simp
    have hi := hre rfl
    rw [hl] at hlg hi
    have := FShape.idle (S := S) (A := A) (l := l) (buf := []) hlg hi h1 h2
    rw [← hl] at this
    exact this
  | @pending x r' h1 h2 h3 =>
    obtain ⟨rem', t'⟩ := x
    exact .pending ⟨.writing hlg h1 (hw.adv h2), rfl, by decide, by simp, hn⟩ (by simp) hy (h2.grew h3)
  | @ready a x r' h1 h2 =>
    obtain ⟨rem', t'⟩ := x
    obtain ⟨-, h1, h3⟩ := h1
    exact .ready (.inr ⟨rfl, ⟨gs, g, lg, t', r', rfl, rfl, hlg, h1, hw.adv h2⟩, hn⟩) rfl hy ⟨h2.kept h3, h2.answers⟩

/-- One poll of a write. -/
theorem any_write (hR : Recovers S) {broken : List Nat} {groups : List (List Event)} {pend : List Event} {s : WriteStream × τ} {e : Event} (h : FGood S A l broken groups pend s) (hpos : 0 < (Wire.frame e).length)
    (hok : ∀ n, 0 < n → n < (Wire.frame e).length + WRITE_BUF_SIZE → LOk S n) :
    FWrote (S := S) (A := A) (l := l) (T.base s.2) (s.1.futFlush ≠ none ∧ Big s.1 e) s.1.futFlush broken (wrote e s.1 groups pend).1 (wrote e s.1 groups pend).2
      (Wire.frame e).length (pollWrite T A s (Wire.frame e)) := by
  obtain ⟨h1, hb, hsh, hfi, hn⟩ := h
  have hlen : (framesOf (pend ++ [e])).length = (framesOf pend).length + (Wire.frame e).length := by rw [framesOf_snoc, List.length_append]
  have hok' : LOk S (framesOf (pend ++ [e])).length := hok _ (by omega) (by rw [hlen]; omega)
  have hall : (framesOf (pend ++ [e])).length ≤ u32Max := by have := hok'.2.1; unfold u32Max; omega
  have hBig : Big s.1 e ↔ WRITE_BUF_SIZE ≤ (framesOf (pend ++ [e])).length := by unfold Big; rw [hb, hlen]
  cases h1 with
  | @idle _ lg buf t parts hlg hi hpa h2 =>
    dsimp only at hb hBig
    subst hb
    simp only [pollWrite, ← framesOf_snoc, wrote, ne_eq, not_true, if_false, if_true, hBig]
    by_cases hbig : WRITE_BUF_SIZE ≤ (framesOf (pend ++ [e])).length
    · simp only [if_pos hbig]
      simp only [List.take_of_length_le hall, List.drop_of_length_le hall, Bool.and_self, if_true]
      obtain ⟨c, lg', hlg', he, hp⟩ := encrypt_encAt A hlg hok'.2.1
      rw [he]
      dsimp only
      rw [← hp]
      refine any_futWrite hR (by simp) _ hlg' (S.start hi (hok'.pkg A l)) (Mid.begin _ hpa h2) ?_
      intro x hx
      rw [List.mem_append, List.mem_singleton] at hx
      rcases hx with hx | rfl
      · exact hn x hx
      · exact ⟨by simp, hok'⟩
    · simp only [if_neg hbig]
      exact .ready (.inl ⟨⟨.idle hlg hi hpa h2, rfl, by omega, fun _ => hok', hn⟩, rfl, .inr (by simp)⟩) rfl (by simp) ⟨⟨Nat.le_refl _, .inr rfl⟩, List.suffix_refl _⟩
  | @writing gs g lg rem t r hlg hw h2 =>
    have hp : pend = [] := by
      cases pend with
      | nil => rfl
      | cons x xs =>
        have := (hfi (by simp)).1
        rw [← hb] at this
        simp at this
    subst hp
    simp only [pollWrite, wrote, ne_eq, reduceCtorEq, not_false_eq_true, if_true]
    exact any_futWrite hR (by simp) _ hlg hw h2 hn
  | @flushWriting gs g lg buf rem t r hlg hw h2 =>
    dsimp only at hb hBig
    subst hb
    simp only [pollWrite, ← framesOf_snoc, wrote, ne_eq, not_true, if_false, hBig]
    by_cases hbig : WRITE_BUF_SIZE ≤ (framesOf (pend ++ [e])).length
    · simp only [if_pos hbig]
      simp only [List.drop_of_length_le hall, Bool.and_self, Bool.false_eq_true, if_false, reduceCtorEq]
      exact .panic ⟨.flushWriting hlg hw h2, rfl, by decide, by simp, hn⟩ rfl rfl ⟨by simp, hbig⟩ rfl
    · simp only [if_neg hbig]
      exact .ready (.inl ⟨⟨.flushWriting hlg hw h2, rfl, by omega, fun _ => hok', hn⟩, rfl, .inl (by simp)⟩) rfl (fun h => hbig h.2) ⟨⟨Nat.le_refl _, .inr rfl⟩, List.suffix_refl _⟩
  | @flushing gs g lg buf t r hlg hw h2 =>
    dsimp only at hb hBig
    subst hb
    simp only [pollWrite, ← framesOf_snoc, wrote, ne_eq, not_true, if_false, hBig]
    by_cases hbig : WRITE_BUF_SIZE ≤ (framesOf (pend ++ [e])).length
    · simp only [if_pos hbig]
      simp only [List.drop_of_length_le hall, Bool.and_self, Bool.false_eq_true, if_false, reduceCtorEq]
      exact .panic ⟨.flushing hlg hw h2, rfl, by decide, by simp, hn⟩ rfl rfl ⟨by simp, hbig⟩ rfl
    · simp only [if_neg hbig]
      exact .ready (.inl ⟨⟨.flushing hlg hw h2, rfl, by omega, fun _ => hok', hn⟩, rfl, .inl (by simp)⟩) rfl (fun h => hbig h.2) ⟨⟨Nat.le_refl _, .inr rfl⟩, List.suffix_refl _⟩

/-- What a poll to flush leads to. -/
inductive FFlushed (s0 : Socket) (broken : List Nat) (groups : List (List Event)) (pend : List Event) : Poll Unit × WriteStream × τ → Prop
  | pending {s} : FGood S A l broken groups pend s → s.1.futWrite = none → s.1.futFlush ≠ none → Grew T s0 s.2 → FFlushed s0 broken groups pend (.pending true, s)
  | ready {s} : FGood S A l broken groups pend s → s.1.futWrite = none → s.1.futFlush = none → FFlushed s0 broken groups pend (.ready (.ok ()), s)
  | error {s e} : FGood S A l (broke broken groups) groups pend s → s.1.futWrite = none → s.1.futFlush = none → Fails s0.answers e → FFlushed s0 broken groups pend (.ready (.error e), s)

theorem any_futFlush (hR : Recovers S) {broken : List Nat} {gs : List (List Event)} {g : List Event} {pend : List Event} {lg : List Encryption} {fu : Option FlushFut} {t : τ} {r : Bytes} (hlg : Logged l (gs.length + 1) lg)
    (h : S.flushing gs.length (pkg A l gs.length (framesOf g)) t r) (hw : Mid S A l broken gs g (T.base t).wire r) (hsh : (framesOf pend).length < WRITE_BUF_SIZE)
    (hfi : pend ≠ [] → LOk S (framesOf pend).length) (hn : ∀ x ∈ gs ++ [g], x ≠ [] ∧ LOk S (framesOf x).length) :
    FFlushed (S := S) (A := A) (l := l) (T.base t) broken (gs ++ [g]) pend
      (pollFutFlush T { enc := encAt l (gs.length + 1) lg, buffer := framesOf pend, inner := false, cipher := false, futFlush := fu } t) := by
  have hp := S.flush h
  have hre := fun {e t'} => hR.flush (e := e) (t' := t') h
  have hl : gs.length + 1 = (gs ++ [g]).length := by simp
  unfold pollFutFlush
  generalize T.pollFlush t = x at hp hre
  cases hp with
  | @error e t' r' hb hd =>
    obtain ⟨parts, h1, h2⟩ := (hw.adv hd).torn
    refine .error ⟨?_, rfl, hsh, hfi, hn⟩ rfl rfl hb
    rw [broke_snoc]
    have hi := hre rfl
    rw [hl] at hlg hi ⊢
    exact .idle hlg hi h1 h2
  | @pending t' r' h1 h2 h3 => exact .pending ⟨.flushing hlg h1 (hw.adv h2), rfl, hsh, hfi, hn⟩ rfl (by simp) (h2.grew h3)
  | @ready a t' r' h1 h2 =>
    obtain ⟨h1, rfl⟩ := h1
    obtain ⟨parts, g1, g2⟩ := (hw.adv h2).done
    rw [hl] at hlg h1 ⊢
    exact .ready ⟨.idle hlg h1 g1 g2, rfl, hsh, hfi, hn⟩ rfl rfl

theorem FFlushed.kept {s0 : Socket} {t : τ} {broken : List Nat} {groups : List (List Event)} {pend : List Event} {x : Poll Unit × WriteStream × τ}
    (h : FFlushed (S := S) (A := A) (l := l) (T.base t) broken groups pend x) (hk : FKept T s0 t) : FFlushed (S := S) (A := A) (l := l) s0 broken groups pend x := by
  cases h with
  | pending h1 h2 h3 h4 => exact .pending h1 h2 h3 (hk.1.then h4)
  | ready h1 h2 h3 => exact .ready h1 h2 h3
  | error h1 h2 h3 h4 => exact .error h1 h2 h3 (hk.fails h4)

theorem any_flushWrite (hR : Recovers S) {broken : List Nat} {gs : List (List Event)} {g : List Event} {pend : List Event} {lg : List Encryption} {fu : Option FlushFut} {rem : Bytes} {t : τ} {r : Bytes}
    (hlg : Logged l (gs.length + 1) lg)
    (h : S.writing gs.length (pkg A l gs.length (framesOf g)) rem t r) (hw : Mid S A l broken gs g (T.base t).wire r) (hsh : (framesOf pend).length < WRITE_BUF_SIZE)
    (hfi : pend ≠ [] → LOk S (framesOf pend).length) (hn : ∀ x ∈ gs ++ [g], x ≠ [] ∧ LOk S (framesOf x).length) :
    FFlushed (S := S) (A := A) (l := l) (T.base t) broken (gs ++ [g]) pend
      (pollFlushWrite T { enc := encAt l (gs.length + 1) lg, buffer := framesOf pend, inner := false, cipher := false, futFlush := fu } t rem) := by
  have hp := S.writeAll _ (Nat.le_refl _) h
  have hre := fun {e rem' t'} => hR.writeAll (e := e) (rem' := rem') (t' := t') _ (Nat.le_refl _) h
  unfold pollFlushWrite
  generalize Layers.writeAll T t rem = x at hp hre
  cases hp with
  | @error e x r' hb hd =>
    obtain ⟨rem', t'⟩ := x
    obtain ⟨parts, h1, h2⟩ := (hw.adv hd).torn
    refine .error ⟨?_, rfl, hsh, hfi, hn⟩ rfl rfl hb
    rw [broke_snoc]
    have hl : gs.length + 1 = (gs ++ [g]).length := by simp
    have hi := hre rfl
    rw [hl] at hlg hi ⊢
    exact .idle hlg hi h1 h2
  | @pending x r' h1 h2 h3 =>
    obtain ⟨rem', t'⟩ := x
    exact .pending ⟨.flushWriting hlg h1 (hw.adv h2), rfl, hsh, hfi, hn⟩ rfl (by simp) (h2.grew h3)
  | @ready a x r' h1 h2 =>
    obtain ⟨rem', t'⟩ := x
    obtain ⟨-, h1, h3⟩ := h1
    exact (any_futFlush hR hlg (S.written h1) (hw.adv h2) hsh hfi hn).kept ⟨h2.kept h3, h2.answers⟩

/-- One poll of a flush. -/
theorem any_flush (hR : Recovers S) {broken : List Nat} {groups : List (List Event)} {pend : List Event} {s : WriteStream × τ} (h : FCanFlush S A l broken groups pend s) :
    FFlushed (S := S) (A := A) (l := l) (T.base s.2) broken (flushed s.1 groups pend).1 (flushed s.1 groups pend).2 (pollFlush T A s) := by
  rcases h with ⟨⟨h1, hb, hsh, hfi, hn⟩, hfw, hfl⟩ | ⟨rfl, ⟨gs, g, lg, t, r, rfl, rfl, hlg, hw, h2⟩, hn⟩
  · cases h1 with
    | @idle _ lg buf t parts hlg hi hpa h2 =>
      dsimp only at hb hfl
      subst hb
      have hpe : pend ≠ [] := hfl.resolve_left (by simp)
      have hok := hfi hpe
      have hall : (framesOf pend).length ≤ u32Max := by have := hok.2.1; unfold u32Max; omega
      simp only [flushed, hpe, ne_eq, not_false_eq_true, and_self, if_true]
      simp only [pollFlush, List.take_of_length_le hall, List.drop_of_length_le hall, Bool.and_self, if_true]
      rw [if_pos hok.1]
      obtain ⟨c, lg', hlg', he, hp⟩ := encrypt_encAt A hlg hok.2.1
      rw [he]
      dsimp only
      rw [← hp]
      refine any_flushWrite hR (pend := []) hlg' (S.start hi (hok.pkg A l)) (Mid.begin _ hpa h2) (by decide) (by simp) ?_
      intro x hx
      rw [List.mem_append, List.mem_singleton] at hx
      rcases hx with hx | rfl
      · exact hn x hx
      · exact ⟨hpe, hok⟩
    | writing => simp at hfw
    | @flushWriting gs g lg buf rem t r hlg hw h2 =>
      dsimp only at hb
      subst hb
      simp only [pollFlush, flushed, reduceCtorEq, false_and, if_false]
      exact any_flushWrite hR hlg hw h2 hsh hfi hn
    | @flushing gs g lg buf t r hlg hw h2 =>
      dsimp only at hb
      subst hb
      simp only [pollFlush, flushed, reduceCtorEq, false_and, if_false]
      exact any_futFlush hR hlg hw h2 hsh hfi hn
  · simp only [pollFlush, flushed, ne_eq, not_true, and_false, List.take_nil, List.drop_nil, Bool.and_self, if_true, List.length_nil, Nat.lt_irrefl, if_false]
    exact any_futFlush hR (pend := []) hlg (S.written hw) h2 (by decide) (by simp) hn

/-- What a poll of an emit leads to. -/
inductive FEmit (s0 : Socket) (why : Prop) (fl : Option FlushFut) (broken : List Nat) (groups : List (List Event)) (pend : List Event) (e : Event) : Poll Unit × Stage × WriteStream × τ → Prop
  | pending {st s} : FGood S A l broken groups pend s → AtStage e st s.1 → (∀ rem, st = .writing rem → s.1.futWrite ≠ none) → ¬ why → Grew T s0 s.2 → FEmit s0 why fl broken groups pend e (.pending true, st, s)
  | ready {st s} : FGood S A l broken groups pend s → s.1.futWrite = none → s.1.futFlush = none → ¬ why → FEmit s0 why fl broken groups pend e (.ready (.ok ()), st, s)
  | error {st s err} : FGood S A l (broke broken groups) groups pend s → s.1.futWrite = none → s.1.futFlush = none → ¬ why → Fails s0.answers err → FEmit s0 why fl broken groups pend e (.ready (.error err), st, s)
  | panic {st s} : FGood S A l broken groups pend s → s.1.futWrite = none → s.1.futFlush = fl → why → T.base s.2 = s0 → FEmit s0 why fl broken groups pend e (.panic, st, s)

theorem any_flushing (hR : Recovers S) {s0 : Socket} {why : Prop} (hy : ¬ why) {fl : Option FlushFut} {broken : List Nat} {groups : List (List Event)} {pend : List Event} {s : WriteStream × τ} (e : Event)
    (h : FCanFlush S A l broken groups pend s) (hk : FKept T s0 s.2) :
    FEmit (S := S) (A := A) (l := l) s0 why fl broken (flushed s.1 groups pend).1 (flushed s.1 groups pend).2 e (pollFlushing (encryptedW T A) s) := by
  have h3 := any_flush hR h
  have hp : (encryptedW T A).pollFlush s = pollFlush T A s := rfl
  unfold pollFlushing
  rw [hp]
  generalize pollFlush T A s = x at h3
  cases h3 with
  | pending g1 g2 g3 g4 => exact .pending g1 ⟨g2, g3⟩ (by simp) hy (hk.1.then g4)
  | ready g1 g2 g3 => exact .ready g1 g2 g3 hy
  | error g1 g2 g3 g4 => exact .error g1 g2 g3 hy (hk.fails g4)

/-- One poll of the emit that holds the connection. -/
theorem any_emit (hR : Recovers S) {broken : List Nat} {groups : List (List Event)} {pend : List Event} {s : WriteStream × τ} {e : Event} {st : Stage} (h : FGood S A l broken groups pend s) (hst : AtStage e st s.1)
    (hpos : 0 < (Wire.frame e).length) (hok : ∀ n, 0 < n → n < (Wire.frame e).length + WRITE_BUF_SIZE → LOk S n) :
    FEmit (S := S) (A := A) (l := l) (T.base s.2) (Panics e st s.1) s.1.futFlush broken (took e st s.1 groups pend).1 (took e st s.1 groups pend).2 e (pollEmit (encryptedW T A) s st) := by
  cases st with
  | flushing =>
    have h3 := any_flushing hR (s := s) (s0 := T.base s.2) (why := Panics e .flushing s.1) (fl := s.1.futFlush) (fun h => h.1 rfl) e (.inl ⟨h, hst.1, .inl hst.2⟩) ⟨⟨Nat.le_refl _, .inr rfl⟩, List.suffix_refl _⟩
    have e1 : flushed s.1 groups pend = took e .flushing s.1 groups pend := by
      unfold flushed took
      rw [if_neg (fun h => hst.2 h.1), if_pos (.inr rfl)]
    rw [← e1]
    exact h3
  | writing rem =>
    have hst : rem = Wire.frame e := hst
    subst hst
    have h3 := any_write hR h hpos hok
    have hne : Wire.frame e ≠ [] := List.length_pos_iff.1 hpos
    have hp : (encryptedW T A).pollWrite s (Wire.frame e) = pollWrite T A s (Wire.frame e) := rfl
    have hy : (s.1.futFlush ≠ none ∧ Big s.1 e) ↔ Panics e (.writing (Wire.frame e)) s.1 := ⟨fun h => ⟨by simp, h⟩, fun h => h.2⟩
    have hidle := h.in_write
    have hor : ¬ s.1.futWrite ≠ none → ¬ (s.1.futWrite ≠ none ∨ Stage.writing (Wire.frame e) = .flushing) := fun hn h => h.elim hn (by simp)
    have hbusy : ¬ (s.1.futFlush ≠ none ∧ Big s.1 e) → (wrote e s.1 groups pend).2 = [] → wrote e s.1 groups pend = took e (.writing (Wire.frame e)) s.1 groups pend := by
      intro g3 hnil
      unfold wrote took at *
      by_cases hn : s.1.futWrite ≠ none
      · rw [if_pos hn, if_pos (.inl hn)]
      · rw [if_neg hn] at hnil
        rw [if_neg hn, if_neg (hor hn)]
        by_cases hB : Big s.1 e
        · simp only [if_pos hB]
          by_cases hfl : s.1.futFlush = none
          · rw [if_pos hfl, if_pos hfl]
          · exact absurd ⟨hfl, hB⟩ g3
        · exfalso
          rw [if_neg hB] at hnil
          simp at hnil
    simp only [pollEmit]
    unfold Layers.writeAll
    rw [dif_neg hne, hp]
    generalize pollWrite T A s (Wire.frame e) = x at h3
    cases h3 with
    | @pending s' g1 g2 g3 g4 =>
      rw [← hbusy g3 (g1.in_write g2).2]
      exact .pending g1 rfl (fun _ _ => g2) (fun h => g3 (hy.2 h)) g4
    | @error s' err g1 g2 g3 g4 g5 g6 =>
      rw [← hbusy g5 g2]
      exact .error g1 g3 g4 (fun h => g5 (hy.2 h)) g6
    | panic g1 g2 g3 g4 g5 =>
      have e1 : wrote e s.1 groups pend = took e (.writing (Wire.frame e)) s.1 groups pend := by
        have hn : ¬ s.1.futWrite ≠ none := fun hn => g4.1 (hidle hn).1
        unfold wrote took
        rw [if_neg hn, if_neg (hor hn), if_pos g4.2, if_neg g4.1, if_neg g4.1, if_pos g4.2]
      rw [← e1]
      exact .panic g1 g2 g3 (hy.1 g4) g5
    | @ready s' g1 g2 g3 g5 =>
      obtain ⟨n, hn⟩ : ∃ n, (Wire.frame e).length = n + 1 := ⟨(Wire.frame e).length - 1, by omega⟩
      rw [hn]
      dsimp only
      rw [← hn, List.drop_of_length_le (Nat.le_refl _)]
      unfold Layers.writeAll
      rw [dif_pos rfl]
      dsimp only
      have h4 := any_flushing hR (s0 := T.base s.2) (why := Panics e (.writing (Wire.frame e)) s.1) (fl := s.1.futFlush) (fun h => g3 (hy.2 h)) e g1 g5
      have e1 : flushed s'.1 (wrote e s.1 groups pend).1 (wrote e s.1 groups pend).2 = took e (.writing (Wire.frame e)) s.1 groups pend := by
        unfold flushed
        rw [g2]
        unfold wrote took
        by_cases hn : s.1.futWrite ≠ none
        · have hn' : s.1.futWrite ≠ none ∨ Stage.writing (Wire.frame e) = .flushing := .inl hn
          rw [(hidle hn).2]
          simp only [if_pos hn, if_pos hn', ne_eq, not_true, and_false, if_false]
        · rw [if_neg hn, if_neg (hor hn)]
          by_cases hB : Big s.1 e
          · simp only [if_pos hB]
            by_cases hfl : s.1.futFlush = none
            · rw [if_pos hfl, if_pos hfl]; simp
            · exact absurd ⟨hfl, hB⟩ g3
          · simp only [if_neg hB]
            by_cases hfl : s.1.futFlush = none
            · simp [hfl]
            · simp [hfl]
      rw [← e1]
      exact h4

end
end Bromine.Layers
