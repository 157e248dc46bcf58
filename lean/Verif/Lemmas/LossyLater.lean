import Verif.Spec.Lossy
import Verif.Lemmas.Lossy
import Verif.Lemmas.DropLink
/-
An event that is lost stays lost.
-/
namespace Bromine.Lossy
open Bromine.Endpoint Bromine.System Spec

variable {CA CB : Type} {ca : Config CA} {cb : Config CB} {linked : Nat → Bool}

theorem Later.reachable {s s' : Sys CA CB} (h : Reachable ca cb linked s) (hl : Later ca cb linked s s') : Reachable ca cb linked s' := by
  induction hl with
  | refl => exact h
  | left _ hs hc ih => exact .left ih hs hc
  | right _ hs hc ih => exact .right ih hs hc

theorem Later.swap {s s' : Sys CA CB} (hl : Later ca cb linked s s') : Later cb ca linked s.swap s'.swap := by
  induction hl with
  | refl => exact .refl
  | left _ hs hc ih => exact .right ih hs hc
  | right _ hs hc ih => exact .left ih hs hc

theorem Later.ext {s s' : Sys CA CB} (hl : Later ca cb linked s s') : Ext s.a s'.a ∧ Ext s.b s'.b := by
  induction hl with
  | refl => exact ⟨.refl _, .refl _⟩
  | left _ hs _ ih => exact ⟨ih.1.trans (stepR_of_step hs).ext, ih.2⟩
  | right _ hs _ ih => exact ⟨ih.1, ih.2.trans (stepR_of_step hs).ext⟩

theorem not_both {α : Type} {x y : α} : ∀ {l : List α}, l.Nodup → [x, y].Sublist l → [y, x].Sublist l → False
  | [], _, h, _ => by cases h
  | z :: l, hn, h, h' => by
    have hn' := List.nodup_cons.1 hn
    cases h with
    | cons _ h =>
      cases h' with
      | cons _ h' => exact not_both hn'.2 h h'
      | cons_cons _ h' => exact hn'.1 (h.subset (by simp))
    | cons_cons _ h =>
      cases h' with
      | cons _ h' => exact hn'.1 (h'.subset (by simp))
      | cons_cons _ h' => exact hn'.1 (h.subset (by simp))

/-- What is lost does not arrive any more. -/
theorem lost_forever {sent sent' arrived arrived' : List Event} {e : Event} (h : Lost sent arrived e) (hs : sent <+: sent') (ha : arrived <+: arrived') (hsub : arrived'.Sublist sent') (hn : sent'.Nodup) : e ∉ arrived' := by
  obtain ⟨h1, l, x, l', rfl, h2, h3⟩ := h
  obtain ⟨m, rfl⟩ := ha
  intro he
  have he : e ∈ m := by
    rcases List.mem_append.1 he with he | he
    · exact absurd he h1
    · exact he
  refine not_both hn (x := x) (y := e) (List.Sublist.trans ?_ hsub) (List.Sublist.trans ?_ hs.sublist)
  · have : [x, e] = [x] ++ [e] := rfl
    rw [this]
    exact List.Sublist.append (List.singleton_sublist.2 h3) (List.singleton_sublist.2 he)
  · have : [e, x] = [e] ++ [x] := rfl
    rw [this]
    exact List.Sublist.append (List.singleton_sublist.2 h2) (List.singleton_sublist.2 (by simp))

/-- A request whose event is written stays so. -/
theorem waiting_step {s s' : State CA} {op : Endpoint.Op} (hs : Endpoint.step ca s op = some s') {r : Nat} {q q' : Req} (hq : s.reqs r = some q) (hq' : s'.reqs r = some q')
    (h : q.phase ≠ .registered ∧ q.phase ≠ .finished .failed) : q'.phase ≠ .registered ∧ q'.phase ≠ .finished .failed := by
  have hsr := stepR_of_step hs
  cases hsr
  all_goals try (rw [hq] at hq'; cases hq'; exact h)
  all_goals simp only [upd_apply] at hq'
  all_goals grind

theorem Later.waiting {s s' : Sys CA CB} (hl : Later ca cb linked s s') {r : Nat} {q : Req} (hq : s.a.reqs r = some q) (h : q.phase ≠ .registered ∧ q.phase ≠ .finished .failed) :
    ∀ q', s'.a.reqs r = some q' → q'.phase ≠ .registered ∧ q'.phase ≠ .finished .failed := by
  induction hl with
  | refl => intro q' hq'; rw [hq] at hq'; cases hq'; exact h
  | right _ _ _ ih => exact ih
  | left hl hs _ ih =>
    intro q' hq'
    obtain ⟨q1, h1, _⟩ := hl.ext.1.reqs r q hq
    exact waiting_step hs h1 hq' (ih q1 h1)

end Bromine.Lossy

namespace Bromine.Lossy
open Bromine.Endpoint Bromine.System

theorem Later.trans {CA CB : Type} {ca : Config CA} {cb : Config CB} {linked : Nat → Bool} {s t u : Sys CA CB} (h : Later ca cb linked s t) (h' : Later ca cb linked t u) : Later ca cb linked s u := by
  induction h' with
  | refl => exact h
  | left _ hs hc ih => exact .left ih hs hc
  | right _ hs hc ih => exact .right ih hs hc

end Bromine.Lossy

namespace Bromine.Stack
open Bromine.Endpoint

variable {CA CB : Type} {ca : Config CA} {cb : Config CB} {linked : Nat → Bool} {LR LL : Nat → Link}

/-- Runs of the stack over links that lose events at most are, for the endpoints, runs of Model/Lossy.lean. -/
theorem later_lossy {carR carL : Nat → Event → Prop} (hR : ∀ c, linked c = true → (LR c).LosesAtMost (carR c)) (hL : ∀ c, linked c = true → (LL c).LosesAtMost (carL c)) :
    ∀ (ops : List (Op LR LL)) {s s' : St CA CB LR LL}, Reachable ca cb linked LR LL s → run ca cb linked LR LL s ops = some s' → Carriable linked carR carL s' →
      Carriable linked carR carL s ∧ Lossy.Later ca cb linked s.sys s'.sys
  | [], s, s', _, hr, hc => by cases hr; exact ⟨hc, .refl⟩
  | op :: ops, s, s', h, hr, hc => by
    simp only [run, Option.bind_eq_some_iff] at hr
    obtain ⟨s1, hs, hr⟩ := hr
    have hre : Reachable ca cb linked LR LL s1 := by
      obtain ⟨ops0, ho⟩ := h
      refine ⟨ops0 ++ [op], ?_⟩
      generalize init LR LL = x at ho
      induction ops0 generalizing x with
      | nil => simp only [run, Option.some.injEq] at ho; subst ho; simp [run, hs]
      | cons o' ops0 ih' =>
        simp only [run, Option.bind_eq_some_iff, List.cons_append] at ho ⊢
        obtain ⟨z, hz, hz'⟩ := ho
        exact ⟨z, hz, ih' z hz'⟩
    obtain ⟨hc1, hl⟩ := later_lossy hR hL ops hre hr hc
    refine ⟨carriable_back hs hc1, Lossy.Later.trans ?_ hl⟩
    obtain ⟨c1, c2⟩ := Lossy.carries (refines_lossy hR hL hre hc1)
    clear hl hr hre hc1
    obtain ⟨⟨a', b'⟩, r', l'⟩ := s1
    dsimp only at c1 c2 ⊢
    rcases sys_cases hs with ⟨o, -, h1, h2⟩ | ⟨o, -, h1, h2⟩ | h1 | ⟨d, e, l, hd, hr, h1, h2⟩ | ⟨d, e, l, hd, hr, h1, h2⟩
    · cases h2; exact .left .refl h1 c1
    · cases h2; exact .right .refl h1 c2
    · change _ = s.sys at h1; dsimp only at h1; rw [h1]; exact .refl
    · cases h2; exact .right .refl h1 c2
    · cases h2; exact .left .refl h1 c1

end Bromine.Stack
