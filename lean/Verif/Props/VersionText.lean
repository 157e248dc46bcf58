import Verif.Props.Frame
import Std.Data.String.ToNat
/-
C06: the text with which a version is refused.
-/
namespace Bromine.Props

theorem split_dot {l l' r r' : List Char} (hl : '.' ∉ l) (hl' : '.' ∉ l') (h : l ++ '.' :: r = l' ++ '.' :: r') : l = l' ∧ r = r' := by
  induction l generalizing l' with
  | nil =>
    cases l' with
    | nil => exact ⟨rfl, by simpa using h⟩
    | cons x l' => simp at h; exact absurd (List.mem_cons.2 (.inl h.1)) hl'
  | cons y l ih =>
    cases l' with
    | nil => simp at h; exact absurd (by simp [h.1]) hl
    | cons x l' =>
      simp only [List.cons_append, List.cons.injEq] at h
      obtain ⟨e1, e2⟩ := ih (fun hm => hl (by simp [hm])) (fun hm => hl' (by simp [hm])) h.2
      exact ⟨by rw [h.1, e1], e2⟩

/-- C06: the text of the refusal tells the version: different versions have different texts. -/
theorem C06_text_tells_version (a b c a' b' c' : UInt8)
    (h : s!"{a.toNat}.{b.toNat}.{c.toNat}" = s!"{a'.toNat}.{b'.toNat}.{c'.toNat}") : a = a' ∧ b = b' ∧ c = c' := by
  have nodot : ∀ n : Nat, '.' ∉ Nat.toDigits 10 n := fun n hn =>
    absurd (Nat.isDigit_of_mem_toDigits (b := 10) (by omega) (by omega) hn) (by decide)
  have inj : ∀ x y : UInt8, Nat.toDigits 10 x.toNat = Nat.toDigits 10 y.toNat → x = y := fun x y h =>
    UInt8.toNat_inj.1 (Nat.repr_inj.1 (by simp [Nat.repr, h]))
  have h := congrArg String.toList h
  simp [toString] at h
  obtain ⟨h1, h⟩ := split_dot (nodot _) (nodot _) h
  obtain ⟨h2, h3⟩ := split_dot (nodot _) (nodot _) h
  exact ⟨inj _ _ h1, inj _ _ h2, inj _ _ h3⟩

/-- For example, 1.23.4 and 12.3.4 have different texts. -/
example : s!"{(1 : UInt8).toNat}.{(23 : UInt8).toNat}.{(4 : UInt8).toNat}" ≠ s!"{(12 : UInt8).toNat}.{(3 : UInt8).toNat}.{(4 : UInt8).toNat}" :=
  fun h => absurd (C06_text_tells_version 1 23 4 12 3 4 h).1 (by decide)

end Bromine.Props
