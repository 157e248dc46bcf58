import Verif.Model.LayerDrop
import Verif.Lemmas.LayerLink
import Verif.Lemmas.LayerAttack
/-
Dropped emits on a connection with encrypted layers: the write half of the outermost layer keeps what it has begun, so the layers below see whole packages only, each followed by a flush.
-/
namespace Bromine.Layers
open Bromine CryptIO Spec Props

section
variable {τ : Type} {T : WriteT τ Socket} (S : Sends T) (A : Aead) (l : Layer)

/-- The bytes on the wire of packages that carry these events, the first of them number `i`. -/
def packs : Nat → List (List Event) → Bytes
  | _, [] => []
  | i, g :: gs => S.wrap i (pkg A l i (framesOf g)) ++ packs (i + 1) gs

theorem packs_append (i : Nat) (a b : List (List Event)) : packs S A l i (a ++ b) = packs S A l i a ++ packs S A l (i + a.length) b := by
  induction a generalizing i with
  | nil => simp [packs]
  | cons g a ih =>
    simp only [List.cons_append, packs, ih, List.length_cons, List.append_assoc]
    rw [show i + 1 + a.length = i + (a.length + 1) by omega]

/-- The futures of the outermost layer; `r` is what is left to go to the wire of the packages that carry `groups`. -/
inductive HShape : List (List Event) → WriteStream × τ → Bytes → Prop
  | idle {gs lg buf t} : Logged l gs.length lg → S.idle gs.length t → HShape gs ({ enc := encAt l gs.length lg, buffer := buf }, t) []
  | writing {gs g lg rem t r} : Logged l (gs.length + 1) lg → S.writing gs.length (pkg A l gs.length (framesOf g)) rem t r →
      HShape (gs ++ [g]) ({ enc := encAt l (gs.length + 1) lg, inner := false, cipher := false, futWrite := some rem }, t) r
  | flushWriting {gs g lg buf rem t r} : Logged l (gs.length + 1) lg → S.writing gs.length (pkg A l gs.length (framesOf g)) rem t r →
      HShape (gs ++ [g]) ({ enc := encAt l (gs.length + 1) lg, buffer := buf, inner := false, cipher := false, futFlush := some (.writing rem) }, t) r
  | flushing {gs g lg buf t r} : Logged l (gs.length + 1) lg → S.flushing gs.length (pkg A l gs.length (framesOf g)) t r →
      HShape (gs ++ [g]) ({ enc := encAt l (gs.length + 1) lg, buffer := buf, inner := false, cipher := false, futFlush := some .flushing }, t) r

/-- `groups` are the events of the packages so far, `pend` those in the buffer of the outermost layer. -/
structure Good (groups : List (List Event)) (pend : List Event) (s : WriteStream × τ) : Prop where
  shape : ∃ r, HShape S A l groups s r ∧ (T.base s.2).wire ++ r = packs S A l 0 groups
  buf : s.1.buffer = framesOf pend
  short : (framesOf pend).length < WRITE_BUF_SIZE
  fits : pend ≠ [] → LOk S (framesOf pend).length
  ne : ∀ g ∈ groups, g ≠ [] ∧ LOk S (framesOf g).length

/-- A write has just been finished: the package of the last of the groups is in the hands of the transport. -/
structure Wrote (groups : List (List Event)) (s : WriteStream × τ) : Prop where
  shape : ∃ gs g lg t r, groups = gs ++ [g] ∧ s = ({ enc := encAt l (gs.length + 1) lg }, t) ∧ Logged l (gs.length + 1) lg ∧ S.writing gs.length (pkg A l gs.length (framesOf g)) [] t r ∧
    (T.base t).wire ++ r = packs S A l 0 groups
  ne : ∀ g ∈ groups, g ≠ [] ∧ LOk S (framesOf g).length

/-- The emit has come to its flush. -/
def CanFlush (groups : List (List Event)) (pend : List Event) (s : WriteStream × τ) : Prop :=
  (Good S A l groups pend s ∧ s.1.futWrite = none ∧ (s.1.futFlush ≠ none ∨ pend ≠ [])) ∨ (pend = [] ∧ Wrote S A l groups s)

variable {S A l}

theorem Good.set {groups : List (List Event)} {pend : List Event} {s : WriteStream × τ} (h : Good S A l groups pend s) (as : List IoAns) :
    Good S A l groups pend (s.1, T.setBase s.2 { T.base s.2 with answers := as }) := by
  obtain ⟨⟨r, h1, h2⟩, hb, hs, hf, hn⟩ := h
  refine ⟨⟨r, ?_, by dsimp only; rw [S.base_set]; exact h2⟩, hb, hs, hf, hn⟩
  cases h1 with
  | idle g1 g2 => exact .idle g1 (S.idle_set _ g2)
  | writing g1 g2 => exact .writing g1 (S.writing_set _ g2)
  | flushWriting g1 g2 => exact .flushWriting g1 (S.writing_set _ g2)
  | flushing g1 g2 => exact .flushing g1 (S.flushing_set _ g2)

theorem Adv.wire_eq {s s' : Socket} {r r' : Bytes} (h : Adv s s' r r') : s'.wire ++ r' = s.wire ++ r := by
  obtain ⟨⟨d, e1, e2⟩, -⟩ := h
  rw [e2, e1, List.append_assoc]

theorem Adv.fine {s s' : Socket} {r r' : Bytes} (h : Adv s s' r r') (hf : ¬ Bad s.answers) : ¬ Bad s'.answers := fun hb => hf (h.bad hb)

/-- Bytes have gone to the wire, or the socket had no answer. -/
def Grew (T : WriteT τ Socket) (s0 : Socket) (t : τ) : Prop := s0.wire.length ≤ (T.base t).wire.length ∧ (s0.wire.length < (T.base t).wire.length ∨ ¬ HeadReady s0.answers)

/-- Bytes have gone to the wire, or the socket has not been asked. -/
def Kept (T : WriteT τ Socket) (s0 : Socket) (t : τ) : Prop := s0.wire.length ≤ (T.base t).wire.length ∧ (s0.wire.length < (T.base t).wire.length ∨ (T.base t).answers = s0.answers)

theorem Adv.grown {s s' : Socket} {r r' : Bytes} (h : Adv s s' r r') : s.wire.length ≤ s'.wire.length ∧ (r' ≠ r → s.wire.length < s'.wire.length) := by
  obtain ⟨⟨d, e1, e2⟩, -⟩ := h
  rw [e2, List.length_append]
  refine ⟨by omega, fun hne => ?_⟩
  have : d ≠ [] := fun hd => hne (by rw [e1, hd]; rfl)
  have := List.length_pos_iff.2 this
  omega

theorem Adv.grew {s : Socket} {t : τ} {r r' : Bytes} (h : Adv s (T.base t) r r') (hp : r' ≠ r ∨ ¬ HeadReady s.answers) : Grew T s t :=
  ⟨h.grown.1, hp.imp h.grown.2 id⟩

theorem Adv.kept {s : Socket} {t : τ} {r r' : Bytes} (h : Adv s (T.base t) r r') (hp : r' ≠ r ∨ (T.base t).answers = s.answers) : Kept T s t :=
  ⟨h.grown.1, hp.imp h.grown.2 id⟩

theorem Kept.then {s : Socket} {t t' : τ} (h : Kept T s t) (h' : Grew T (T.base t) t') : Grew T s t' := by
  refine ⟨Nat.le_trans h.1 h'.1, ?_⟩
  rcases h.2 with g | g
  · exact .inl (Nat.lt_of_lt_of_le g h'.1)
  · rcases h'.2 with k | k
    · exact .inl (Nat.lt_of_le_of_lt h.1 k)
    · exact .inr (g ▸ k)

/-- What a poll to write leads to; `why` is when it panics; `fl` the future of a flush, which it does not touch. -/
inductive DWrote (s0 : Socket) (why : Prop) (fl : Option FlushFut) (groups : List (List Event)) (pend : List Event) (len : Nat) : Poll Nat × WriteStream × τ → Prop
  | pending {s} : Good S A l groups pend s → s.1.futWrite ≠ none → ¬ why → Grew T s0 s.2 → DWrote s0 why fl groups pend len (.pending true, s)
  | ready {s} : CanFlush S A l groups pend s → s.1.futFlush = fl → ¬ why → ¬ Bad (T.base s.2).answers → Kept T s0 s.2 → DWrote s0 why fl groups pend len (.ready (.ok len), s)
  | panic {s} : Good S A l groups pend s → s.1.futWrite = none → s.1.futFlush = fl → why → T.base s.2 = s0 → DWrote s0 why fl groups pend len (.panic, s)

/-- Going on with a write. -/
theorem drop_futWrite {why : Prop} (hy : ¬ why) {gs : List (List Event)} {g : List Event} {lg : List Encryption} {fu : Option Bytes} {rem : Bytes} {t : τ} {r : Bytes} (len : Nat) (hlg : Logged l (gs.length + 1) lg)
    (h : S.writing gs.length (pkg A l gs.length (framesOf g)) rem t r) (hw : (T.base t).wire ++ r = packs S A l 0 (gs ++ [g]))
    (hn : ∀ x ∈ gs ++ [g], x ≠ [] ∧ LOk S (framesOf x).length) (hf : ¬ Bad (T.base t).answers) :
    DWrote (S := S) (A := A) (l := l) (T.base t) why none (gs ++ [g]) [] len (pollFutWrite T { enc := encAt l (gs.length + 1) lg, inner := false, cipher := false, futWrite := fu } t rem len) := by
  have hp := S.writeAll _ (Nat.le_refl _) h
  unfold pollFutWrite
  generalize Layers.writeAll T t rem = x at hp
  cases hp with
  | error hb hd => exact absurd hb.bad hf
  | @pending x r' h1 h2 h3 =>
    obtain ⟨rem', t'⟩ := x
    refine .pending ⟨⟨r', .writing hlg h1, by rw [← hw]; exact h2.wire_eq⟩, rfl, by decide, by simp, hn⟩ (by simp) hy (h2.grew h3)
  | @ready a x r' h1 h2 =>
    obtain ⟨rem', t'⟩ := x
    obtain ⟨-, h1, h3⟩ := h1
    refine .ready (.inr ⟨rfl, ⟨gs, g, lg, t', r', rfl, rfl, hlg, h1, by rw [← hw]; exact h2.wire_eq⟩, hn⟩) rfl hy (h2.fine hf) (h2.kept h3)

theorem framesOf_snoc (es : List Event) (e : Event) : framesOf (es ++ [e]) = framesOf es ++ Wire.frame e := by simp [framesOf]

theorem packs_snoc (gs : List (List Event)) (g : List Event) : packs S A l 0 (gs ++ [g]) = packs S A l 0 gs ++ S.wrap gs.length (pkg A l gs.length (framesOf g)) := by
  rw [packs_append]; simp [packs]

/-- The buffer is full with this frame. -/
def Big (ws : WriteStream) (e : Event) : Prop := WRITE_BUF_SIZE ≤ ws.buffer.length + (Wire.frame e).length

instance (ws : WriteStream) (e : Event) : Decidable (Big ws e) := inferInstanceAs (Decidable (_ ≤ _))

/-- The events in packages, and in the buffer, after a poll to write. -/
def wrote (e : Event) (ws : WriteStream) (groups : List (List Event)) (pend : List Event) : List (List Event) × List Event :=
  if ws.futWrite ≠ none then (groups, pend)
  else if Big ws e then (if ws.futFlush = none then groups ++ [pend ++ [e]] else groups, [])
  else (groups, pend ++ [e])

/-- One poll of a write. -/
theorem drop_write {groups : List (List Event)} {pend : List Event} {s : WriteStream × τ} {e : Event} (h : Good S A l groups pend s) (hf : ¬ Bad (T.base s.2).answers) (hpos : 0 < (Wire.frame e).length)
    (hok : ∀ n, 0 < n → n < (Wire.frame e).length + WRITE_BUF_SIZE → LOk S n) :
    DWrote (S := S) (A := A) (l := l) (T.base s.2) (s.1.futFlush ≠ none ∧ Big s.1 e) s.1.futFlush (wrote e s.1 groups pend).1 (wrote e s.1 groups pend).2
      (Wire.frame e).length (pollWrite T A s (Wire.frame e)) := by
  obtain ⟨⟨r, h1, h2⟩, hb, hsh, hfi, hn⟩ := h
  have hlen : (framesOf (pend ++ [e])).length = (framesOf pend).length + (Wire.frame e).length := by rw [framesOf_snoc, List.length_append]
  have hok' : LOk S (framesOf (pend ++ [e])).length := hok _ (by omega) (by rw [hlen]; omega)
  have hall : (framesOf (pend ++ [e])).length ≤ u32Max := by have := hok'.2.1; unfold u32Max; omega
  have hBig : Big s.1 e ↔ WRITE_BUF_SIZE ≤ (framesOf (pend ++ [e])).length := by unfold Big; rw [hb, hlen]
  cases h1 with
  | @idle _ lg buf t hlg hi =>
    dsimp only at hb hBig
    subst hb
    simp only [pollWrite, ← framesOf_snoc, wrote, ne_eq, not_true, if_false, if_true, hBig]
    by_cases hbig : WRITE_BUF_SIZE ≤ (framesOf (pend ++ [e])).length
    · simp only [if_pos hbig]
      simp only [List.take_of_length_le hall, List.drop_of_length_le hall, Bool.and_self, if_true]
      obtain ⟨c, lg', hlg', he, hp⟩ := encrypt_encAt A hlg hok'.2.1
      rw [he]
      dsimp only
      rw [← hp]
      refine drop_futWrite (by simp) _ hlg' (S.start hi (hok'.pkg A l)) ?_ ?_ hf
      · rw [packs_snoc, ← h2, List.append_nil]
      · intro x hx
        rw [List.mem_append, List.mem_singleton] at hx
        rcases hx with hx | rfl
        · exact hn x hx
        · exact ⟨by simp, hok'⟩
    · simp only [if_neg hbig]
      exact .ready (.inl ⟨⟨⟨[], .idle hlg hi, h2⟩, rfl, by omega, fun _ => hok', hn⟩, rfl, .inr (by simp)⟩) rfl (by simp) hf ⟨Nat.le_refl _, .inr rfl⟩
  | @writing gs g lg rem t r hlg hw =>
    have hp : pend = [] := by
      cases pend with
      | nil => rfl
      | cons x xs =>
        have := (hfi (by simp)).1
        rw [← hb] at this
        simp at this
    subst hp
    simp only [pollWrite, wrote, ne_eq, reduceCtorEq, not_false_eq_true, if_true]
    exact drop_futWrite (by simp) _ hlg hw h2 hn hf
  | @flushWriting gs g lg buf rem t r hlg hw =>
    dsimp only at hb hBig
    subst hb
    simp only [pollWrite, ← framesOf_snoc, wrote, ne_eq, not_true, if_false, hBig]
    by_cases hbig : WRITE_BUF_SIZE ≤ (framesOf (pend ++ [e])).length
    · simp only [if_pos hbig]
      simp only [List.drop_of_length_le hall, Bool.and_self, Bool.false_eq_true, if_false, reduceCtorEq]
      exact .panic ⟨⟨r, .flushWriting hlg hw, h2⟩, rfl, by decide, by simp, hn⟩ rfl rfl ⟨by simp, hbig⟩ rfl
    · simp only [if_neg hbig]
      exact .ready (.inl ⟨⟨⟨r, .flushWriting hlg hw, h2⟩, rfl, by omega, fun _ => hok', hn⟩, rfl, .inl (by simp)⟩) rfl (fun h => hbig h.2) hf ⟨Nat.le_refl _, .inr rfl⟩
  | @flushing gs g lg buf t r hlg hw =>
    dsimp only at hb hBig
    subst hb
    simp only [pollWrite, ← framesOf_snoc, wrote, ne_eq, not_true, if_false, hBig]
    by_cases hbig : WRITE_BUF_SIZE ≤ (framesOf (pend ++ [e])).length
    · simp only [if_pos hbig]
      simp only [List.drop_of_length_le hall, Bool.and_self, Bool.false_eq_true, if_false, reduceCtorEq]
      exact .panic ⟨⟨r, .flushing hlg hw, h2⟩, rfl, by decide, by simp, hn⟩ rfl rfl ⟨by simp, hbig⟩ rfl
    · simp only [if_neg hbig]
      exact .ready (.inl ⟨⟨⟨r, .flushing hlg hw, h2⟩, rfl, by omega, fun _ => hok', hn⟩, rfl, .inl (by simp)⟩) rfl (fun h => hbig h.2) hf ⟨Nat.le_refl _, .inr rfl⟩

/-- What a poll to flush leads to. -/
inductive DFlushed (s0 : Socket) (groups : List (List Event)) (pend : List Event) : Poll Unit × WriteStream × τ → Prop
  | pending {s} : Good S A l groups pend s → s.1.futWrite = none → s.1.futFlush ≠ none → Grew T s0 s.2 → DFlushed s0 groups pend (.pending true, s)
  | ready {s} : Good S A l groups pend s → s.1.futWrite = none → s.1.futFlush = none → DFlushed s0 groups pend (.ready (.ok ()), s)

theorem drop_futFlush {gs : List (List Event)} {g : List Event} {pend : List Event} {lg : List Encryption} {fu : Option FlushFut} {t : τ} {r : Bytes} (hlg : Logged l (gs.length + 1) lg)
    (h : S.flushing gs.length (pkg A l gs.length (framesOf g)) t r) (hw : (T.base t).wire ++ r = packs S A l 0 (gs ++ [g])) (hsh : (framesOf pend).length < WRITE_BUF_SIZE)
    (hfi : pend ≠ [] → LOk S (framesOf pend).length) (hn : ∀ x ∈ gs ++ [g], x ≠ [] ∧ LOk S (framesOf x).length) (hf : ¬ Bad (T.base t).answers) :
    DFlushed (S := S) (A := A) (l := l) (T.base t) (gs ++ [g]) pend
      (pollFutFlush T { enc := encAt l (gs.length + 1) lg, buffer := framesOf pend, inner := false, cipher := false, futFlush := fu } t) := by
  have hp := S.flush h
  unfold pollFutFlush
  generalize T.pollFlush t = x at hp
  cases hp with
  | error hb hd => exact absurd hb.bad hf
  | @pending t' r' h1 h2 h3 => exact .pending ⟨⟨r', .flushing hlg h1, by rw [← hw]; exact h2.wire_eq⟩, rfl, hsh, hfi, hn⟩ rfl (by simp) (h2.grew h3)
  | @ready a t' r' h1 h2 =>
    obtain ⟨h1, rfl⟩ := h1
    have hl : gs.length + 1 = (gs ++ [g]).length := by simp
    rw [hl] at hlg h1 ⊢
    exact .ready ⟨⟨[], .idle hlg h1, by rw [← hw]; exact h2.wire_eq⟩, rfl, hsh, hfi, hn⟩ rfl rfl

theorem DFlushed.kept {s0 : Socket} {t : τ} {groups : List (List Event)} {pend : List Event} {x : Poll Unit × WriteStream × τ} (h : DFlushed (S := S) (A := A) (l := l) (T.base t) groups pend x) (hk : Kept T s0 t) :
    DFlushed (S := S) (A := A) (l := l) s0 groups pend x := by
  cases h with
  | pending h1 h2 h3 h4 => exact .pending h1 h2 h3 (hk.then h4)
  | ready h1 h2 h3 => exact .ready h1 h2 h3

theorem drop_flushWrite {gs : List (List Event)} {g : List Event} {pend : List Event} {lg : List Encryption} {fu : Option FlushFut} {rem : Bytes} {t : τ} {r : Bytes}
    (hlg : Logged l (gs.length + 1) lg)
    (h : S.writing gs.length (pkg A l gs.length (framesOf g)) rem t r) (hw : (T.base t).wire ++ r = packs S A l 0 (gs ++ [g])) (hsh : (framesOf pend).length < WRITE_BUF_SIZE)
    (hfi : pend ≠ [] → LOk S (framesOf pend).length) (hn : ∀ x ∈ gs ++ [g], x ≠ [] ∧ LOk S (framesOf x).length) (hf : ¬ Bad (T.base t).answers) :
    DFlushed (S := S) (A := A) (l := l) (T.base t) (gs ++ [g]) pend
      (pollFlushWrite T { enc := encAt l (gs.length + 1) lg, buffer := framesOf pend, inner := false, cipher := false, futFlush := fu } t rem) := by
  have hp := S.writeAll _ (Nat.le_refl _) h
  unfold pollFlushWrite
  generalize Layers.writeAll T t rem = x at hp
  cases hp with
  | error hb hd => exact absurd hb.bad hf
  | @pending x r' h1 h2 h3 =>
    obtain ⟨rem', t'⟩ := x
    exact .pending ⟨⟨r', .flushWriting hlg h1, by rw [← hw]; exact h2.wire_eq⟩, rfl, hsh, hfi, hn⟩ rfl (by simp) (h2.grew h3)
  | @ready a x r' h1 h2 =>
    obtain ⟨rem', t'⟩ := x
    obtain ⟨-, h1, h3⟩ := h1
    exact (drop_futFlush hlg (S.written h1) (by rw [← hw]; exact h2.wire_eq) hsh hfi hn (h2.fine hf)).kept (h2.kept h3)

/-- The events in packages, and in the buffer, after a poll to flush. -/
def flushed (ws : WriteStream) (groups : List (List Event)) (pend : List Event) : List (List Event) × List Event :=
  if ws.futFlush = none ∧ pend ≠ [] then (groups ++ [pend], []) else (groups, pend)

/-- One poll of a flush. -/
theorem drop_flush {groups : List (List Event)} {pend : List Event} {s : WriteStream × τ} (h : CanFlush S A l groups pend s) (hf : ¬ Bad (T.base s.2).answers) :
    DFlushed (S := S) (A := A) (l := l) (T.base s.2) (flushed s.1 groups pend).1 (flushed s.1 groups pend).2 (pollFlush T A s) := by
  rcases h with ⟨⟨⟨r, h1, h2⟩, hb, hsh, hfi, hn⟩, hfw, hfl⟩ | ⟨rfl, ⟨gs, g, lg, t, r, rfl, rfl, hlg, hw, h2⟩, hn⟩
  · cases h1 with
    | @idle _ lg buf t hlg hi =>
      dsimp only at hb hfl
      subst hb
      have hpe : pend ≠ [] := hfl.resolve_left (by simp)
      have hok := hfi hpe
      have hall : (framesOf pend).length ≤ u32Max := by have := hok.2.1; unfold u32Max; omega
      simp only [flushed, hpe, ne_eq, not_false_eq_true, and_self, if_true]
      simp only [pollFlush, List.take_of_length_le hall, List.drop_of_length_le hall, Bool.and_self, if_true]
      rw [if_pos hok.1]
      obtain ⟨c, lg', hlg', he, hp⟩ := encrypt_encAt A hlg hok.2.1
      rw [he]
      dsimp only
      rw [← hp]
      refine drop_flushWrite (pend := []) hlg' (S.start hi (hok.pkg A l)) ?_ (by decide) (by simp) ?_ hf
      · rw [packs_snoc, ← h2, List.append_nil]
      · intro x hx
        rw [List.mem_append, List.mem_singleton] at hx
        rcases hx with hx | rfl
        · exact hn x hx
        · exact ⟨hpe, hok⟩
    | writing => simp at hfw
    | @flushWriting gs g lg buf rem t r hlg hw =>
      dsimp only at hb
      subst hb
      simp only [pollFlush, flushed, reduceCtorEq, false_and, if_false]
      exact drop_flushWrite hlg hw h2 hsh hfi hn hf
    | @flushing gs g lg buf t r hlg hw =>
      dsimp only at hb
      subst hb
      simp only [pollFlush, flushed, reduceCtorEq, false_and, if_false]
      exact drop_futFlush hlg hw h2 hsh hfi hn hf
  · simp only [pollFlush, flushed, ne_eq, not_true, and_false, List.take_nil, List.drop_nil, Bool.and_self, if_true, List.length_nil, Nat.lt_irrefl, if_false]
    exact drop_futFlush (pend := []) hlg (S.written hw) h2 (by decide) (by simp) hn hf

/-- Where an emit of `e` that holds the connection is; `es` is all that has been taken. -/
def AtStage (e : Event) : Stage → WriteStream → Prop
  | .writing rem, _ => rem = Wire.frame e
  | .flushing, ws => ws.futWrite = none ∧ ws.futFlush ≠ none

/-- What a poll of an emit leads to. -/
inductive DEmit (s0 : Socket) (why : Prop) (fl : Option FlushFut) (groups : List (List Event)) (pend : List Event) (e : Event) : Poll Unit × Stage × WriteStream × τ → Prop
  | pending {st s} : Good S A l groups pend s → AtStage e st s.1 → (∀ rem, st = .writing rem → s.1.futWrite ≠ none) → ¬ why → Grew T s0 s.2 → DEmit s0 why fl groups pend e (.pending true, st, s)
  | ready {st s} : Good S A l groups pend s → s.1.futWrite = none → s.1.futFlush = none → ¬ why → DEmit s0 why fl groups pend e (.ready (.ok ()), st, s)
  | panic {st s} : Good S A l groups pend s → s.1.futWrite = none → s.1.futFlush = fl → why → T.base s.2 = s0 → DEmit s0 why fl groups pend e (.panic, st, s)

theorem drop_flushing {s0 : Socket} {why : Prop} (hy : ¬ why) {fl : Option FlushFut} {groups : List (List Event)} {pend : List Event} {s : WriteStream × τ} (e : Event) (h : CanFlush S A l groups pend s) (hf : ¬ Bad (T.base s.2).answers) (hk : Kept T s0 s.2) :
    DEmit (S := S) (A := A) (l := l) s0 why fl (flushed s.1 groups pend).1 (flushed s.1 groups pend).2 e (pollFlushing (encryptedW T A) s) := by
  have h3 := drop_flush h hf
  have hp : (encryptedW T A).pollFlush s = pollFlush T A s := rfl
  unfold pollFlushing
  rw [hp]
  generalize pollFlush T A s = x at h3
  cases h3 with
  | pending g1 g2 g3 g4 => exact .pending g1 ⟨g2, g3⟩ (by simp) hy (hk.then g4)
  | ready g1 g2 g3 => exact .ready g1 g2 g3 hy

/-- The events in packages, and in the buffer, after a poll of an emit of `e`. -/
def took (e : Event) (st : Stage) (ws : WriteStream) (groups : List (List Event)) (pend : List Event) : List (List Event) × List Event :=
  if ws.futWrite ≠ none ∨ st = .flushing then (groups, pend)
  else if ws.futFlush = none then (groups ++ [pend ++ [e]], [])
  else if Big ws e then (groups, []) else (groups, pend ++ [e])

theorem took_prefix (e : Event) (st : Stage) (ws : WriteStream) (groups : List (List Event)) (pend : List Event) : groups <+: (took e st ws groups pend).1 := by
  unfold took
  split
  · exact List.prefix_rfl
  · split
    · exact List.prefix_append _ _
    · split <;> exact List.prefix_rfl

theorem took_sub (e : Event) (st : Stage) (ws : WriteStream) (groups : List (List Event)) (pend : List Event) :
    ((took e st ws groups pend).1.flatten ++ (took e st ws groups pend).2).Sublist (groups.flatten ++ pend ++ if ws.futWrite = none ∧ st ≠ .flushing then [e] else []) := by
  unfold took
  by_cases h : ws.futWrite ≠ none ∨ st = .flushing
  · rw [if_pos h]; exact List.sublist_append_left _ _
  · have h' : ws.futWrite = none ∧ st ≠ .flushing := ⟨Classical.not_not.1 fun hn => h (.inl hn), fun hn => h (.inr hn)⟩
    simp only [if_neg h, if_pos h']
    split
    · simp
    · split <;> simp

/-- When a poll of an emit of `e` panics. -/
def Panics (e : Event) (st : Stage) (ws : WriteStream) : Prop := st ≠ .flushing ∧ ws.futFlush ≠ none ∧ Big ws e

/-- While a package of a write is under way there is no flush and nothing in the buffer. -/
theorem Good.in_write {groups : List (List Event)} {pend : List Event} {s : WriteStream × τ} (h : Good S A l groups pend s) (hn : s.1.futWrite ≠ none) : s.1.futFlush = none ∧ pend = [] := by
  obtain ⟨⟨r, h1, -⟩, hb, -, hfi, -⟩ := h
  cases h1 with
  | idle => simp at hn
  | flushWriting => simp at hn
  | flushing => simp at hn
  | writing =>
    refine ⟨rfl, ?_⟩
    cases pend with
    | nil => rfl
    | cons x xs =>
      have := (hfi (by simp)).1
      rw [← hb] at this
      simp at this

/-- One poll of the emit that holds the connection. -/
theorem drop_emit {groups : List (List Event)} {pend : List Event} {s : WriteStream × τ} {e : Event} {st : Stage} (h : Good S A l groups pend s) (hst : AtStage e st s.1)
    (hf : ¬ Bad (T.base s.2).answers) (hpos : 0 < (Wire.frame e).length) (hok : ∀ n, 0 < n → n < (Wire.frame e).length + WRITE_BUF_SIZE → LOk S n) :
    DEmit (S := S) (A := A) (l := l) (T.base s.2) (Panics e st s.1) s.1.futFlush (took e st s.1 groups pend).1 (took e st s.1 groups pend).2 e (pollEmit (encryptedW T A) s st) := by
  cases st with
  | flushing =>
    have h3 := drop_flushing (s := s) (s0 := T.base s.2) (why := Panics e .flushing s.1) (fl := s.1.futFlush) (fun h => h.1 rfl) e (.inl ⟨h, hst.1, .inl hst.2⟩) hf ⟨Nat.le_refl _, .inr rfl⟩
    have e1 : flushed s.1 groups pend = took e .flushing s.1 groups pend := by
      unfold flushed took
      rw [if_neg (fun h => hst.2 h.1), if_pos (.inr rfl)]
    rw [← e1]
    exact h3
  | writing rem =>
    have hst : rem = Wire.frame e := hst
    subst hst
    have h3 := drop_write h hf hpos hok
    have hne : Wire.frame e ≠ [] := List.length_pos_iff.1 hpos
    have hp : (encryptedW T A).pollWrite s (Wire.frame e) = pollWrite T A s (Wire.frame e) := rfl
    have hy : (s.1.futFlush ≠ none ∧ Big s.1 e) ↔ Panics e (.writing (Wire.frame e)) s.1 := ⟨fun h => ⟨by simp, h⟩, fun h => h.2⟩
    have hidle := h.in_write
    have hor : ¬ s.1.futWrite ≠ none → ¬ (s.1.futWrite ≠ none ∨ Stage.writing (Wire.frame e) = .flushing) := fun hn h => h.elim hn (by simp)
    simp only [pollEmit]
    unfold Layers.writeAll
    rw [dif_neg hne, hp]
    generalize pollWrite T A s (Wire.frame e) = x at h3
    cases h3 with
    | @pending s' g1 g2 g3 g4 =>
      have e1 : wrote e s.1 groups pend = took e (.writing (Wire.frame e)) s.1 groups pend := by
        unfold wrote took
        by_cases hn : s.1.futWrite ≠ none
        · rw [if_pos hn, if_pos (.inl hn)]
        · rw [if_neg hn, if_neg (hor hn)]
          by_cases hB : Big s.1 e
          · simp only [if_pos hB]
            by_cases hfl : s.1.futFlush = none
            · rw [if_pos hfl, if_pos hfl]
            · exact absurd ⟨hfl, hB⟩ g3
          · exfalso
            -- the buffer is not full: nothing is written
            have := (g1.in_write g2).2
            unfold wrote at this
            rw [if_neg hn, if_neg hB] at this
            simp at this
      rw [← e1]
      exact .pending g1 rfl (fun _ _ => g2) (fun h => g3 (hy.2 h)) g4
    | panic g1 g2 g3 g4 g5 =>
      have e1 : wrote e s.1 groups pend = took e (.writing (Wire.frame e)) s.1 groups pend := by
        have hn : ¬ s.1.futWrite ≠ none := fun hn => g4.1 (hidle hn).1
        unfold wrote took
        rw [if_neg hn, if_neg (hor hn), if_pos g4.2, if_neg g4.1, if_neg g4.1, if_pos g4.2]
      rw [← e1]
      exact .panic g1 g2 g3 (hy.1 g4) g5
    | @ready s' g1 g2 g3 g4 g5 =>
      obtain ⟨n, hn⟩ : ∃ n, (Wire.frame e).length = n + 1 := ⟨(Wire.frame e).length - 1, by omega⟩
      rw [hn]
      dsimp only
      rw [← hn, List.drop_of_length_le (Nat.le_refl _)]
      unfold Layers.writeAll
      rw [dif_pos rfl]
      dsimp only
      have h4 := drop_flushing (s0 := T.base s.2) (why := Panics e (.writing (Wire.frame e)) s.1) (fl := s.1.futFlush) (fun h => g3 (hy.2 h)) e g1 g4 g5
      have e1 : flushed s'.1 (wrote e s.1 groups pend).1 (wrote e s.1 groups pend).2 = took e (.writing (Wire.frame e)) s.1 groups pend := by
        unfold flushed
        rw [g2]
        unfold wrote took
        by_cases hn : s.1.futWrite ≠ none
        · have hn' : s.1.futWrite ≠ none ∨ Stage.writing (Wire.frame e) = .flushing := .inl hn
          rw [(hidle hn).2]
          simp only [if_pos hn, if_pos hn', ne_eq, not_true, and_false, if_false]
        · rw [if_neg hn, if_neg (hor hn)]
          by_cases hB : Big s.1 e
          · simp only [if_pos hB]
            by_cases hfl : s.1.futFlush = none
            · rw [if_pos hfl, if_pos hfl]; simp
            · exact absurd ⟨hfl, hB⟩ g3
          · simp only [if_neg hB]
            by_cases hfl : s.1.futFlush = none
            · simp [hfl]
            · simp [hfl]
      rw [← e1]
      exact h4

end
end Bromine.Layers
