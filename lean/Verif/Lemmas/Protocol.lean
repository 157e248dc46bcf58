import Verif.Spec.Protocol
/-
Lemmas about sequences of calls.
-/
namespace Bromine.Protocol
open Bromine Spec Handshake Action

variable {Addr α β : Type}

/-- The action makes the calls of the plan, and its value satisfies `P`. -/
def Does (m : Action Addr α) (plan : List (Call Addr)) (P : α → Prop) : Prop :=
  ∀ w h, ∃ r, Performs w h plan (m w h).1 r ∧ Ends P r (m w h).2

theorem _root_.Bromine.Spec.Performs.append_ok {w : World Addr} {h p h' q h'' r} (h1 : Performs w h p h' (.ok ())) (h2 : Performs w h' q h'' r) :
    Performs w h (p ++ q) h'' r := by
  generalize ho : (Outcome.ok () : Outcome Unit) = o at h1
  induction h1 with
  | done => exact h2
  | next hc _ ih => exact .next hc (ih h2 ho)
  | stop hc => exact absurd ho.symm hc

theorem _root_.Bromine.Spec.Performs.append_fail {w : World Addr} {h p h' q r} (h1 : Performs w h p h' r) (hr : r ≠ .ok ()) : Performs w h (p ++ q) h' r := by
  induction h1 with
  | done => exact absurd rfl hr
  | next hc _ ih => exact .next hc (ih hr)
  | stop hc => exact .stop hc

theorem does_pure {P : α → Prop} {a : α} (h : P a) : Does (Addr := Addr) (pure a) [] P := fun _ h' => ⟨.ok (), .done h', rfl, h⟩

theorem does_call (c : Call Addr) : Does (call c) [c] fun _ => True := by
  intro w h
  refine ⟨w h c, ?_, ?_⟩
  · simp only [call]
    by_cases hc : w h c = .ok ()
    · rw [hc]; exact .next hc (.done _)
    · exact .stop hc
  · simp only [call]
    cases w h c <;> simp [Ends]

theorem Does.andThen {m : Action Addr α} {f : α → Action Addr β} {p q : List (Call Addr)} {P : α → Prop} {Q : β → Prop} (h1 : Does m p P)
    (h2 : ∀ a, P a → Does (f a) q Q) : Does (m.andThen f) (p ++ q) Q := by
  intro w h
  obtain ⟨r, g1, g2⟩ := h1 w h
  unfold Action.andThen
  generalize m w h = x at g1 g2
  obtain ⟨h', o⟩ := x
  cases o with
  | ok a =>
    obtain ⟨rfl, ha⟩ := g2
    obtain ⟨r', g3, g4⟩ := h2 a ha w h'
    exact ⟨r', g1.append_ok g3, g4⟩
  | err e => cases g2; exact ⟨_, g1.append_fail (by simp), rfl⟩
  | panic => cases g2; exact ⟨_, g1.append_fail (by simp), rfl⟩
  | hang => cases g2; exact ⟨_, g1.append_fail (by simp), rfl⟩

theorem Does.mono {m : Action Addr α} {p : List (Call Addr)} {P Q : α → Prop} (h : Does m p P) (hi : ∀ a, P a → Q a) : Does m p Q := by
  intro w h'
  obtain ⟨r, g1, g2⟩ := h w h'
  refine ⟨r, g1, ?_⟩
  cases hx : (m w h').2 <;> rw [hx] at g2 <;> simp only [Ends] at g2 ⊢
  · exact ⟨g2.1, hi _ g2.2⟩
  all_goals exact g2

/-- Performing a plan is deterministic. -/
theorem _root_.Bromine.Spec.Performs.det {w : World Addr} {h p h' r} (h1 : Performs w h p h' r) : ∀ {h'' r'}, Performs w h p h'' r' → h' = h'' ∧ r = r' := by
  induction h1 with
  | done => intro _ _ h2; cases h2; exact ⟨rfl, rfl⟩
  | next hc _ ih =>
    intro _ _ h2
    cases h2 with
    | next _ h3 => exact ih h3
    | stop hn => exact absurd hc hn
  | stop hc =>
    intro _ _ h2
    cases h2 with
    | next hn _ => exact absurd hn hc
    | stop _ => exact ⟨rfl, rfl⟩

theorem _root_.Bromine.Spec.Performs.ok_calls {w : World Addr} {h p h' r} (h1 : Performs w h p h' r) (hr : r = .ok ()) :
    h' = h ++ p ∧ ∀ i c, p[i]? = some c → w (h ++ p.take i) c = .ok () := by
  induction h1 with
  | done => simp
  | @next h c cs h' r hc _ ih =>
    obtain ⟨g1, g2⟩ := ih hr
    refine ⟨by simp [g1], fun i c' hi => ?_⟩
    cases i with
    | zero => simp at hi; subst hi; simpa using hc
    | succ i => simpa using g2 i c' (by simpa using hi)
  | stop hc => exact absurd hr hc

/-- A plan ended without success: exactly one of its calls did not succeed, the last one made. -/
theorem _root_.Bromine.Spec.Performs.fail_call {w : World Addr} {h p h' r} (h1 : Performs w h p h' r) (hr : r ≠ .ok ()) :
    ∃ pre c post, p = pre ++ c :: post ∧ h' = h ++ pre ++ [c] ∧ w (h ++ pre) c = r := by
  induction h1 with
  | done => exact absurd rfl hr
  | @next h c cs h' r hc _ ih =>
    obtain ⟨pre, c', post, g1, g2, g3⟩ := ih hr
    exact ⟨c :: pre, c', post, by simp [g1], by simp [g2], by simpa using g3⟩
  | @stop h c cs hc => exact ⟨[], c, cs, rfl, by simp, by simp⟩

end Bromine.Protocol
