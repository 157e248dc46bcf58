import Verif.Lemmas.LayerLink
/-
Transports that have carried some frames already.
-/
namespace Bromine.Layers
open Bromine CryptIO

/-- After `k` frames. -/
def Sends.shift {τ : Type} {T : WriteT τ Socket} (S : Sends T) (k : Nat) : Sends T where
  idle i := S.idle (k + i)
  wrap i := S.wrap (k + i)
  ok := S.ok
  writing i := S.writing (k + i)
  flushing i := S.flushing (k + i)
  start h hok := S.start h hok
  written h := S.written h
  write h hne := S.write h hne
  flush h := S.flush h
  pos h := S.pos h
  base_set := S.base_set
  idle_set b h := S.idle_set b h
  writing_set b h := S.writing_set b h
  flushing_set b h := S.flushing_set b h

/-- After `k` frames. -/
def Receives.shift {ρ : Type} {R : ReadT ρ} {closed : Bool} (V : Receives R closed) (k : Nat) : Receives R closed where
  idle i := V.idle (k + i)
  at_ i := V.at_ (k + i)
  empty := V.empty
  wrap i := V.wrap (k + i)
  ok := V.ok
  none_left h := V.none_left h
  poll_empty h h0 := V.poll_empty h h0
  start h hok := V.start h hok
  cut h hb hz hok := V.cut h hb hz hok
  finish h := V.finish h
  unfinished h := V.unfinished h
  idle_base h := V.idle_base h
  base_set := V.base_set
  idle_set sc h hc := V.idle_set sc h hc
  poll h h0 hle := V.poll h h0 hle

theorem Polled.mono {τ α : Type} {base : τ → Socket} {s : Socket} {r : Bytes} {P P' : α → τ → Bytes → Prop} {Q Q' : τ → Bytes → Prop} {x : Poll α × τ} (h : Polled base s r P Q x)
    (hp : ∀ a t r, P a t r → P' a t r) (hq : ∀ t r, Q t r → Q' t r) : Polled base s r P' Q' x := by
  cases h with
  | ready h1 h2 => exact .ready (hp _ _ _ h1) h2
  | error h1 h2 => exact .error h1 h2
  | pending h1 h2 h3 => exact .pending (hq _ _ h1) h2 h3

/-- One of several. -/
def Sends.any {τ ι : Type} {T : WriteT τ Socket} (S : ι → Sends T) (wrap : Nat → Bytes → Bytes) (ok : Nat → Prop) (hw : ∀ j, (S j).wrap = wrap) (hok : ∀ j, (S j).ok = ok)
    (hpos : ∀ {n}, ok n → 0 < n) (hset : ∀ t b, T.base (T.setBase t b) = b) : Sends T where
  idle i t := ∃ j, (S j).idle i t
  wrap := wrap
  ok := ok
  writing i f rem t r := ∃ j, (S j).writing i f rem t r
  flushing i f t r := ∃ j, (S j).flushing i f t r
  start := by
    rintro i t f ⟨j, h⟩ ho
    refine ⟨j, ?_⟩
    rw [← hw j]
    rw [← hok j] at ho
    exact (S j).start h ho
  written := by
    rintro i f t r ⟨j, h⟩
    exact ⟨j, (S j).written h⟩
  write := by
    rintro i f rem t r ⟨j, h⟩ hne
    refine ((S j).write h hne).mono ?_ fun _ _ h => ⟨j, h⟩
    rintro n t' r' (h | ⟨h1, h2, h3⟩)
    · exact .inl h
    · exact .inr ⟨h1, ⟨j, h2⟩, h3⟩
  flush := by
    rintro i f t r ⟨j, h⟩
    refine ((S j).flush h).mono ?_ fun _ _ h => ⟨j, h⟩
    rintro _ t' r' ⟨h1, h2⟩
    exact ⟨⟨j, h1⟩, h2⟩
  pos := hpos
  base_set := hset
  idle_set := by
    rintro i t b ⟨j, h⟩
    exact ⟨j, (S j).idle_set b h⟩
  writing_set := by
    rintro i f rem t r b ⟨j, h⟩
    exact ⟨j, (S j).writing_set b h⟩
  flushing_set := by
    rintro i f t r b ⟨j, h⟩
    exact ⟨j, (S j).flushing_set b h⟩

/-- One of them is the beginning of the other. -/
def Cmp (a b : Bytes) : Prop := a <+: b ∨ b <+: a

theorem Cmp.nil (a : Bytes) : Cmp a [] := .inr (List.nil_prefix)

theorem Cmp.of_prefix {a b c : Bytes} (h : a <+: b) (hc : Cmp b c) : Cmp a c := by
  rcases hc with hc | hc
  · exact .inl (h.trans hc)
  · exact List.prefix_or_prefix_of_prefix h hc

theorem Cmp.prefix_right {a b c : Bytes} (h : Cmp a b) (hc : c <+: b) : Cmp a c := by
  rcases h with h | h
  · exact List.prefix_or_prefix_of_prefix h hc
  · exact .inr (hc.trans h)

theorem Cmp.cancel {a b c : Bytes} (h : Cmp (a ++ b) (a ++ c)) : Cmp b c := by
  rcases h with h | h
  · exact .inl ((List.prefix_append_right_inj a).1 h)
  · exact .inr ((List.prefix_append_right_inj a).1 h)

/-- A frame is to be read. -/
theorem Receives.begin {ρ : Type} {R : ReadT ρ} {closed : Bool} (V : Receives R closed) {i : Nat} {r : ρ} {b f q : Bytes} (h : V.idle i r b) (hok : V.ok f.length) (hc : Cmp b (V.wrap i f ++ q)) :
    ∃ av, V.at_ i f av r ∧ (∀ rest, av = some rest → b = V.wrap i f ++ rest ∧ Cmp rest q) ∧ (V.wrap i f <+: b → av ≠ none) := by
  rcases (hc.prefix_right (List.prefix_append _ _)).symm with ⟨rest, rfl⟩ | ⟨z, hz⟩
  · refine ⟨some rest, V.start h hok, ?_, by simp⟩
    rintro rest' h'
    cases h'
    exact ⟨rfl, hc.cancel⟩
  · by_cases h0 : z = []
    · subst h0
      rw [List.append_nil] at hz
      subst hz
      refine ⟨some [], V.start (by simpa using h) hok, ?_, by simp⟩
      rintro rest' h'
      cases h'
      exact ⟨by simp, .inl List.nil_prefix⟩
    · refine ⟨none, V.cut h hz h0 hok, by simp, ?_⟩
      rintro ⟨y, hy⟩
      have := congrArg List.length hz
      have h2 := congrArg List.length hy
      have : 0 < z.length := List.length_pos_iff.2 h0
      simp only [List.length_append] at *
      omega

end Bromine.Layers
