import Verif.Spec.Pool
import Mathlib.Data.List.Perm.Basic
/-
Invariants of a pool.
-/
namespace Bromine.Pool
open Spec

structure Inv (n : Nat) (s : State) : Prop where
  cnt : ∀ i, i < n → s.count i + 1 = UInt64.ofNat (live s i)
  shape : ∀ (p : Nat) (h : Handle), s.handles[p]? = some h → (h.phase = .ready → h.lo = 0 ∧ h.hi = n) ∧
    (∀ src, h.phase = .cloning src → h.lo = 0 ∧ h.hi ≤ n ∧ ∃ h' : Handle, s.handles[src]? = some h' ∧ h'.phase = .ready) ∧
    (h.phase = .dropping → h.lo ≤ n ∧ h.hi = n)
  guards : ∀ i ∈ s.guards, i < n
  acq : ∀ (a : Nat) (q : Acquire), s.acquires[a]? = some (some q) → q.next ≤ n ∧ (∃ h : Handle, s.handles[q.pool]? = some h ∧ h.phase = .ready) ∧
    (q.best = none ↔ q.next = 0) ∧ ∀ i k, q.best = some (i, k) → i < q.next

theorem uadd (a : UInt64) (m : Nat) (h : a + 1 = UInt64.ofNat m) : a + 1 + 1 = UInt64.ofNat (m + 1) := by
  rw [h, UInt64.ofNat_add]; rfl

theorem usub (a : UInt64) (m : Nat) (h : a + 1 = UInt64.ofNat (m + 1)) : a - 1 + 1 = UInt64.ofNat m := by
  rw [UInt64.ofNat_add] at h
  have : a = UInt64.ofNat m := UInt64.add_left_inj _ |>.1 h
  rw [this, UInt64.sub_add_cancel]

theorem borrow_acq {s : State} {p a : Nat} {q : Acquire} (hb : borrowed s p = false)
    (hq : s.acquires[a]? = some (some q)) : q.pool ≠ p := by
  rintro rfl
  simp only [borrowed, Bool.or_eq_false_iff] at hb
  have := List.any_eq_false.1 hb.1 (some q) (List.mem_of_getElem? hq)
  simp at this

theorem borrow_clone {s : State} {p a : Nat} {h : Handle} (hb : borrowed s p = false)
    (hq : s.handles[a]? = some h) : h.phase ≠ .cloning p := by
  intro hc
  simp only [borrowed, Bool.or_eq_false_iff] at hb
  have := List.any_eq_false.1 hb.2 h (List.mem_of_getElem? hq)
  simp [hc] at this

theorem live_set {s : State} {p i : Nat} {h h' : Handle} (hp : s.handles[p]? = some h) (c : Nat → UInt64) :
    live { s with handles := s.handles.set p h', count := c } i + (if h.lo ≤ i ∧ i < h.hi then 1 else 0) =
    live s i + (if h'.lo ≤ i ∧ i < h'.hi then 1 else 0) := by
  obtain ⟨hlt, hget⟩ := List.getElem?_eq_some_iff.1 hp
  simp only [live]
  rw [List.countP_set hlt, hget]
  have : (if h.lo ≤ i ∧ i < h.hi then 1 else 0) ≤ s.handles.countP fun h => decide (h.lo ≤ i ∧ i < h.hi) := by
    split
    · rename_i hh
      exact List.countP_pos_iff.2 ⟨h, List.mem_of_getElem? hp, by simp [hh]⟩
    · exact Nat.zero_le _
  simp only [decide_eq_true_eq]
  omega

theorem getElem?_append_some {α : Type} {l : List α} {x : α} {p : Nat} {h : α} (hp : (l ++ [x])[p]? = some h) :
    l[p]? = some h ∨ h = x := by
  rw [List.getElem?_append] at hp
  split at hp
  · exact .inl hp
  · have := List.mem_of_getElem? hp; simp at this; exact .inr this

theorem getElem?_append_left' {α : Type} {l : List α} {x : α} {p : Nat} {h : α} (hp : l[p]? = some h) :
    (l ++ [x])[p]? = some h := by
  have hlt := (List.getElem?_eq_some_iff.1 hp).1
  rw [List.getElem?_append_left hlt, hp]

theorem inv_init (n : Nat) : Inv n (init n) := by
  refine ⟨?_, ?_, by simp [init], by simp [init]⟩
  · intro i hi
    simp [init, live, hi]
  · intro p h hp
    have := List.mem_of_getElem? hp
    simp [init] at this
    subst this
    simp

/-- The count invariant after changing one counter. -/
theorem cnt_setCount {n : Nat} {s s' : State} {j : Nat} {v : UInt64} (h : ∀ i, i < n → s.count i + 1 = UInt64.ofNat (live s i))
    (hc : s'.count = setCount s j v) (hj : j < n → v + 1 = UInt64.ofNat (live s' j))
    (ho : ∀ i, i ≠ j → live s' i = live s i) : ∀ i, i < n → s'.count i + 1 = UInt64.ofNat (live s' i) := by
  intro i hi
  by_cases hij : i = j
  · subst hij; rw [hc]; simp only [setCount, if_true]; exact hj hi
  · rw [hc, ho i hij]; simp only [setCount, hij, if_false]; exact h i hi

theorem live_guard {s : State} {c : Nat → UInt64} {i j : Nat} {ac : List (Option Acquire)} {ad : List Nat} :
    live { s with count := c, guards := s.guards ++ [j], acquires := ac, acquired := ad } i =
      live s i + if i = j then 1 else 0 := by
  simp only [live, List.count_append, List.count_cons, List.count_nil]
  by_cases h : i = j
  · subst h; simp; omega
  · have : ¬ j = i := fun hh => h hh.symm
    simp [h, this]

theorem live_drop {s : State} {c : Nat → UInt64} {i j k : Nat} (hk : s.guards[k]? = some j) :
    live { s with count := c, guards := s.guards.eraseIdx k } i + (if i = j then 1 else 0) = live s i := by
  obtain ⟨hlt, hget⟩ := List.getElem?_eq_some_iff.1 hk
  have hp : (s.guards[k] :: s.guards.eraseIdx k).Perm s.guards := List.getElem_cons_eraseIdx_perm hlt
  have := hp.count_eq i
  rw [hget, List.count_cons] at this
  simp only [live]
  by_cases h : i = j
  · subst h; simp at this ⊢; omega
  · have h' : ¬ j = i := fun hh => h hh.symm
    simp [h, h'] at this ⊢; omega

theorem set_some {α : Type} {l : List α} {a b : Nat} {x y : α} (h : (l.set a x)[b]? = some y) :
    (a = b ∧ y = x) ∨ (a ≠ b ∧ l[b]? = some y) := by
  rw [List.getElem?_set] at h
  split at h
  · split at h
    · rename_i hab _; exact .inl ⟨hab, by injection h with h; exact h.symm⟩
    · cases h
  · rename_i hab; exact .inr ⟨hab, h⟩

theorem set_get {α : Type} {l : List α} {a b : Nat} {x y : α} (h : l[b]? = some y) :
    (a = b ∧ (l.set a x)[b]? = some x) ∨ (a ≠ b ∧ (l.set a x)[b]? = some y) := by
  have hlt := (List.getElem?_eq_some_iff.1 h).1
  by_cases hab : a = b
  · subst hab; exact .inl ⟨rfl, by simp [hlt]⟩
  · exact .inr ⟨hab, by simp [hab, h]⟩

theorem inv_step {n : Nat} {s s' : State} {op : Op} (h : Inv n s) (hs : step n s op = some s') : Inv n s' := by
  cases op with
  | start p =>
    simp only [step] at hs
    split at hs <;> try cases hs
    rename_i x hp
    split at hs <;> try cases hs
    rename_i hr
    refine ⟨h.cnt, h.shape, h.guards, ?_⟩
    intro a q hq
    rcases getElem?_append_some hq with hq | hq
    · exact h.acq a q hq
    · injection hq with hq; subst hq
      exact ⟨Nat.zero_le _, ⟨x, hp, hr⟩, by simp, by simp⟩
  | load a =>
    simp only [step] at hs
    split at hs <;> try cases hs
    rename_i q hq
    split at hs <;> try cases hs
    rename_i hr
    refine ⟨h.cnt, h.shape, h.guards, ?_⟩
    intro b q' hq'
    rcases set_some hq' with ⟨rfl, hq1⟩ | ⟨_, hq'⟩
    · injection hq1 with hq1; subst hq1
      obtain ⟨h1, h2, h3, h4⟩ := h.acq a q hq
      refine ⟨hr, h2, ?_, ?_⟩
      · simp only [better]; split <;> (try split) <;> simp
      · intro i k
        simp only [better]
        split
        · intro hh; simp at hh; omega
        · split
          · intro hh; simp at hh; omega
          · rename_i hb _
            intro hh; simp at hh
            have := h4 _ _ hb
            omega
    · exact h.acq b q' hq'
  | take a =>
    simp only [step] at hs
    split at hs <;> try cases hs
    rename_i q hq
    split at hs <;> try cases hs
    rename_i hr
    split at hs <;> try cases hs
    rename_i i k hb
    obtain ⟨h1, h2, h3, h4⟩ := h.acq a q hq
    have hi : i < n := by have := h4 _ _ hb; omega
    refine ⟨cnt_setCount h.cnt rfl (fun hj => ?_) (fun j hj => ?_), h.shape, ?_, ?_⟩
    · rw [live_guard]; simp only [if_true]; exact uadd _ _ (h.cnt i hi)
    · rw [live_guard]; simp [hj]
    · intro j hj
      simp only [List.mem_append, List.mem_singleton] at hj
      rcases hj with hj | rfl
      · exact h.guards j hj
      · exact hi
    · intro b q' hq'
      rcases set_some hq' with ⟨_, hq'⟩ | ⟨_, hq'⟩
      · cases hq'
      · exact h.acq b q' hq'
  | clone k =>
    simp only [step] at hs
    split at hs <;> try cases hs
    rename_i i hk
    have hi : i < n := h.guards i (List.mem_of_getElem? hk)
    refine ⟨cnt_setCount h.cnt rfl (fun hj => ?_) (fun j hj => ?_), h.shape, ?_, h.acq⟩
    · have := @live_guard s (setCount s i (s.count i + 1)) i i s.acquires s.acquired
      rw [this]; simp only [if_true]; exact uadd _ _ (h.cnt i hi)
    · have := @live_guard s (setCount s i (s.count i + 1)) j i s.acquires s.acquired
      rw [this]; simp [hj]
    · intro j hj
      simp only [List.mem_append, List.mem_singleton] at hj
      rcases hj with hj | rfl
      · exact h.guards j hj
      · exact hi
  | drop k =>
    simp only [step] at hs
    split at hs <;> try cases hs
    rename_i i hk
    have hi : i < n := h.guards i (List.mem_of_getElem? hk)
    refine ⟨cnt_setCount h.cnt rfl (fun hj => ?_) (fun j hj => ?_), h.shape, ?_, h.acq⟩
    · have := @live_drop s (setCount s i (s.count i - 1)) i i k hk
      simp only [if_true] at this
      apply usub
      rw [this]
      exact h.cnt i hi
    · have := @live_drop s (setCount s i (s.count i - 1)) j i k hk
      simpa [hj] using this
    · intro j hj
      exact h.guards j ((List.eraseIdx_sublist _ _).subset hj)
  | cloneStart p =>
    simp only [step] at hs
    split at hs <;> try cases hs
    rename_i x hp
    split at hs <;> try cases hs
    rename_i hr
    refine ⟨?_, ?_, h.guards, ?_⟩
    · intro i hi
      have : live { s with handles := s.handles ++ [{ phase := .cloning p, lo := 0, hi := 0 }] } i = live s i := by
        simp [live]
      rw [this]; exact h.cnt i hi
    · intro a y hy
      rcases getElem?_append_some hy with hy | rfl
      · obtain ⟨h1, h2, h3⟩ := h.shape a y hy
        refine ⟨h1, fun src hsrc => ?_, h3⟩
        obtain ⟨g1, g2, h', g3, g4⟩ := h2 src hsrc
        exact ⟨g1, g2, h', getElem?_append_left' g3, g4⟩
      · refine ⟨by simp, fun src hsrc => ?_, by simp⟩
        simp at hsrc
        subst hsrc
        exact ⟨rfl, Nat.zero_le _, x, getElem?_append_left' hp, hr⟩
    · intro a q hq
      obtain ⟨h1, ⟨h', h2, h3⟩, h4⟩ := h.acq a q hq
      exact ⟨h1, ⟨h', getElem?_append_left' h2, h3⟩, h4⟩
  | cloneNext p =>
    simp only [step] at hs
    split at hs <;> try cases hs
    rename_i x hp
    split at hs <;> try cases hs
    rename_i src hph
    obtain ⟨_, hcl, _⟩ := h.shape p x hp
    obtain ⟨g1, g2, h', g3, g4⟩ := hcl src hph
    have keep : ∀ (y : Handle) (b : Nat) (z : Handle), s.handles[b]? = some z → z.phase = .ready →
        (s.handles.set p y)[b]? = some z := by
      intro y b z hz hzr
      rcases set_get (a := p) (x := y) hz with ⟨rfl, _⟩ | ⟨_, h1⟩
      · rw [hp] at hz; cases hz; rw [hph] at hzr; cases hzr
      · exact h1
    split at hs
    · rename_i hlt
      cases hs
      refine ⟨cnt_setCount h.cnt rfl (fun hj => ?_) (fun j hj => ?_), ?_, h.guards, ?_⟩
      · have := @live_set s p x.hi x { phase := .cloning src, lo := 0, hi := x.hi + 1 } hp (setCount s x.hi (s.count x.hi + 1))
        simp at this
        rw [this]
        exact uadd _ _ (h.cnt _ hlt)
      · have := @live_set s p j x { phase := .cloning src, lo := 0, hi := x.hi + 1 } hp (setCount s x.hi (s.count x.hi + 1))
        have e : (x.lo ≤ j ∧ j < x.hi) ↔ (0 ≤ j ∧ j < x.hi + 1) := by rw [g1]; omega
        simp only [e] at this
        omega
      · intro a y hy
        rcases set_some hy with ⟨rfl, rfl⟩ | ⟨hne, hy⟩
        · refine ⟨by simp, fun src' hsrc => ?_, by simp⟩
          simp at hsrc
          subst hsrc
          exact ⟨rfl, hlt, h', keep _ _ _ g3 g4, g4⟩
        · obtain ⟨h1, h2, h3⟩ := h.shape a y hy
          refine ⟨h1, fun src hsrc => ?_, h3⟩
          obtain ⟨k1, k2, h', k3, k4⟩ := h2 src hsrc
          exact ⟨k1, k2, h', keep _ _ _ k3 k4, k4⟩
      · intro a q hq
        obtain ⟨h1, ⟨h', h2, h3⟩, h4⟩ := h.acq a q hq
        exact ⟨h1, ⟨h', keep _ _ _ h2 h3, h3⟩, h4⟩
    · rename_i hlt
      cases hs
      refine ⟨?_, ?_, h.guards, ?_⟩
      · intro i hi
        have := @live_set s p i x { phase := .ready, lo := 0, hi := n } hp s.count
        have e : (x.lo ≤ i ∧ i < x.hi) ↔ (0 ≤ i ∧ i < n) := by rw [g1]; omega
        simp only [e] at this
        have this : live { s with handles := s.handles.set p { phase := .ready, lo := 0, hi := n } } i = live s i := by omega
        rw [this]; exact h.cnt i hi
      · intro a y hy
        rcases set_some hy with ⟨rfl, rfl⟩ | ⟨hne, hy⟩
        · simp
        · obtain ⟨h1, h2, h3⟩ := h.shape a y hy
          refine ⟨h1, fun src hsrc => ?_, h3⟩
          obtain ⟨k1, k2, h', k3, k4⟩ := h2 src hsrc
          exact ⟨k1, k2, h', keep _ _ _ k3 k4, k4⟩
      · intro a q hq
        obtain ⟨h1, ⟨h', h2, h3⟩, h4⟩ := h.acq a q hq
        exact ⟨h1, ⟨h', keep _ _ _ h2 h3, h3⟩, h4⟩
  | dropStart p =>
    simp only [step] at hs
    split at hs <;> try cases hs
    rename_i x hp
    split at hs <;> try cases hs
    rename_i hr
    obtain ⟨hr, hb⟩ := hr
    obtain ⟨hrd, _, _⟩ := h.shape p x hp
    obtain ⟨hlo, hhi⟩ := hrd hr
    have keep : ∀ (y : Handle) (b : Nat) (z : Handle), s.handles[b]? = some z → b ≠ p →
        (s.handles.set p y)[b]? = some z := by
      intro y b z hz hzr
      rcases set_get (a := p) (x := y) hz with ⟨rfl, _⟩ | ⟨_, h1⟩
      · exact absurd rfl hzr
      · exact h1
    refine ⟨?_, ?_, h.guards, ?_⟩
    · intro i hi
      have := @live_set s p i x { x with phase := .dropping } hp s.count
      simp only [Nat.add_right_cancel_iff] at this
      have this : live { s with handles := s.handles.set p { x with phase := .dropping } } i = live s i := this
      rw [this]; exact h.cnt i hi
    · intro a y hy
      rcases set_some hy with ⟨rfl, rfl⟩ | ⟨hne, hy⟩
      · simp [hlo, hhi]
      · obtain ⟨h1, h2, h3⟩ := h.shape a y hy
        refine ⟨h1, fun src hsrc => ?_, h3⟩
        obtain ⟨k1, k2, h', k3, k4⟩ := h2 src hsrc
        have : src ≠ p := by rintro rfl; exact borrow_clone hb ‹s.handles[a]? = some y› hsrc
        exact ⟨k1, k2, h', keep _ _ _ k3 this, k4⟩
    · intro a q hq
      obtain ⟨h1, ⟨h', h2, h3⟩, h4⟩ := h.acq a q hq
      exact ⟨h1, ⟨h', keep _ _ _ h2 (borrow_acq hb hq), h3⟩, h4⟩
  | dropNext p =>
    simp only [step] at hs
    split at hs <;> try cases hs
    rename_i x hp
    split at hs <;> try cases hs
    rename_i hr
    obtain ⟨hr, hb⟩ := hr
    obtain ⟨_, _, hrd⟩ := h.shape p x hp
    obtain ⟨hlo, hhi⟩ := hrd hr
    have keep : ∀ (y : Handle) (b : Nat) (z : Handle), s.handles[b]? = some z → z.phase = .ready →
        (s.handles.set p y)[b]? = some z := by
      intro y b z hz hzr
      rcases set_get (a := p) (x := y) hz with ⟨rfl, _⟩ | ⟨_, h1⟩
      · rw [hp] at hz; cases hz; rw [hr] at hzr; cases hzr
      · exact h1
    refine ⟨cnt_setCount h.cnt rfl (fun hj => ?_) (fun j hj => ?_), ?_, h.guards, ?_⟩
    · have := @live_set s p x.lo x { x with lo := x.lo + 1 } hp (setCount s x.lo (s.count x.lo - 1))
      have e : ¬ (x.lo + 1 ≤ x.lo ∧ x.lo < x.hi) := by omega
      have e' : x.lo ≤ x.lo ∧ x.lo < x.hi := by omega
      rw [if_pos e', if_neg e] at this
      apply usub
      rw [this]
      exact h.cnt _ hj
    · have := @live_set s p j x { x with lo := x.lo + 1 } hp (setCount s x.lo (s.count x.lo - 1))
      have e : (x.lo + 1 ≤ j ∧ j < x.hi) ↔ (x.lo ≤ j ∧ j < x.hi) := by omega
      simp only [e] at this
      omega
    · intro a y hy
      rcases set_some hy with ⟨rfl, rfl⟩ | ⟨hne, hy⟩
      · refine ⟨by simp [hr], by simp [hr], fun _ => ⟨?_, hhi⟩⟩
        simp; omega
      · obtain ⟨h1, h2, h3⟩ := h.shape a y hy
        refine ⟨h1, fun src hsrc => ?_, h3⟩
        obtain ⟨k1, k2, h', k3, k4⟩ := h2 src hsrc
        exact ⟨k1, k2, h', keep _ _ _ k3 k4, k4⟩
    · intro a q hq
      obtain ⟨h1, ⟨h', h2, h3⟩, h4⟩ := h.acq a q hq
      exact ⟨h1, ⟨h', keep _ _ _ h2 h3, h3⟩, h4⟩

theorem inv_run {n : Nat} {ops : List Op} : ∀ {s s' : State}, Inv n s → run n s ops = some s' → Inv n s' := by
  induction ops with
  | nil => intro s s' h hr; cases hr; exact h
  | cons op ops ih =>
    intro s s' h hr
    simp only [run, Option.bind_eq_some_iff] at hr
    obtain ⟨s1, h1, h2⟩ := hr
    exact ih (inv_step h h1) h2

theorem Reachable.inv {n : Nat} {s : State} (h : Reachable n s) : Inv n s := by
  obtain ⟨ops, ho⟩ := h
  exact inv_run (inv_init n) ho

end Bromine.Pool

namespace Bromine.Pool
open Spec

/-- What `min_by_key` has found so far is the first of the least keys seen. -/
structure Scan (q : Acquire) : Prop where
  len : q.seen.length = q.next
  none : q.best = none → q.next = 0
  best : ∀ i k, q.best = some (i, k) → q.seen[i]? = some k ∧ (∀ (j : Nat) (k' : UInt64), q.seen[j]? = some k' → k ≤ k') ∧
    ∀ (j : Nat) (k' : UInt64), j < i → q.seen[j]? = some k' → k < k'

theorem Scan.load {q : Acquire} (h : Scan q) (c : UInt64) :
    Scan { q with next := q.next + 1, best := better q.best q.next c, seen := q.seen ++ [c] } := by
  refine ⟨by simp [h.len], ?_, ?_⟩
  · simp only [better]; split <;> (try split) <;> simp
  · intro i k
    simp only [better]
    cases hb : q.best with
    | none =>
      have h0 : q.next = 0 := h.none hb
      have hs : q.seen = [] := List.eq_nil_of_length_eq_zero (by rw [h.len, h0])
      simp only [Option.some.injEq, Prod.mk.injEq, and_imp]
      rintro rfl rfl
      rw [hs, h0]
      refine ⟨rfl, ?_, ?_⟩
      · intro j k' hj
        have := List.mem_of_getElem? hj
        simp at this
        simp [this]
      · intro j k' hj; omega
    | some b =>
      obtain ⟨i0, k0⟩ := b
      obtain ⟨h1, h2, h3⟩ := h.best i0 k0 hb
      simp only
      split
      · rename_i hlt
        simp only [Option.some.injEq, Prod.mk.injEq, and_imp]
        rintro rfl rfl
        refine ⟨by rw [← h.len]; simp, ?_, ?_⟩
        · intro j k' hj
          rcases getElem?_append_some hj with hj | rfl
          · have := h2 j k' hj
            exact UInt64.le_of_lt (UInt64.lt_of_lt_of_le hlt this)
          · exact UInt64.le_refl _
        · intro j k' hji hj
          rcases getElem?_append_some hj with hj' | rfl
          · exact UInt64.lt_of_lt_of_le hlt (h2 j k' hj')
          · rw [List.getElem?_append_left (by rw [h.len]; exact hji)] at hj
            exact UInt64.lt_of_lt_of_le hlt (h2 j _ hj)
      · rename_i hlt
        simp only [Option.some.injEq, Prod.mk.injEq, and_imp]
        rintro rfl rfl
        have hi0 : i0 < q.seen.length := (List.getElem?_eq_some_iff.1 h1).1
        refine ⟨getElem?_append_left' h1, ?_, ?_⟩
        · intro j k' hj
          rcases getElem?_append_some hj with hj | rfl
          · exact h2 j k' hj
          · exact UInt64.not_lt.1 hlt
        · intro j k' hji hj
          rw [List.getElem?_append_left (by omega)] at hj
          exact h3 j k' hji hj

theorem scan_step {n : Nat} {s s' : State} {op : Op} (h : ∀ (a : Nat) (q : Acquire), s.acquires[a]? = some (some q) → Scan q)
    (hs : step n s op = some s') : ∀ (a : Nat) (q : Acquire), s'.acquires[a]? = some (some q) → Scan q := by
  cases op with
  | start p =>
    simp only [step] at hs
    split at hs <;> try cases hs
    split at hs <;> try cases hs
    intro a q hq
    rcases getElem?_append_some hq with hq | hq
    · exact h a q hq
    · injection hq with hq; subst hq
      exact ⟨rfl, by simp, by simp⟩
  | load b =>
    simp only [step] at hs
    split at hs <;> try cases hs
    rename_i q hq
    split at hs <;> try cases hs
    intro a q' hq'
    rcases set_some hq' with ⟨rfl, hq1⟩ | ⟨_, hq'⟩
    · injection hq1 with hq1; subst hq1
      exact (h _ q hq).load _
    · exact h a q' hq'
  | take b =>
    simp only [step] at hs
    split at hs <;> try cases hs
    split at hs <;> try cases hs
    split at hs <;> try cases hs
    intro a q' hq'
    rcases set_some hq' with ⟨_, hq1⟩ | ⟨_, hq'⟩
    · cases hq1
    · exact h a q' hq'
  | cloneNext p =>
    simp only [step] at hs
    split at hs <;> try cases hs
    split at hs <;> try cases hs
    split at hs <;> cases hs <;> exact h
  | clone k =>
    simp only [step] at hs
    split at hs <;> try cases hs
    exact h
  | drop k =>
    simp only [step] at hs
    split at hs <;> try cases hs
    exact h
  | _ =>
    simp only [step] at hs
    split at hs <;> try cases hs
    split at hs <;> cases hs
    exact h

theorem Reachable.scan {n : Nat} {s : State} (h : Reachable n s) :
    ∀ (a : Nat) (q : Acquire), s.acquires[a]? = some (some q) → Scan q := by
  obtain ⟨ops, ho⟩ := h
  suffices ∀ (ops : List Op) (s0 s : State), (∀ (a : Nat) (q : Acquire), s0.acquires[a]? = some (some q) → Scan q) →
      run n s0 ops = some s → ∀ (a : Nat) (q : Acquire), s.acquires[a]? = some (some q) → Scan q from
    this ops _ s (by simp [init]) ho
  intro ops
  induction ops with
  | nil => intro s0 s h hr; cases hr; exact h
  | cons op ops ih =>
    intro s0 s h hr
    simp only [run, Option.bind_eq_some_iff] at hr
    obtain ⟨s1, h1, h2⟩ := hr
    exact ih s1 s (scan_step h h1) h2

theorem run_append {n : Nat} {l l' : List Op} : ∀ {x y : State}, run n x l = some y →
    run n x (l ++ l') = run n y l' := by
  induction l with
  | nil => intro x y h; cases h; rfl
  | cons o l ih =>
    intro x y h
    simp only [run, List.cons_append, Option.bind_eq_some_iff] at h ⊢
    obtain ⟨w, h1, h2⟩ := h
    rw [h1, Option.bind_some, ih h2]

theorem Reachable.step {n : Nat} {s s' : State} {op : Op} (h : Reachable n s) (hs : step n s op = some s') :
    Reachable n s' := by
  obtain ⟨ops, ho⟩ := h
  exact ⟨ops ++ [op], by rw [run_append ho]; simp [run, hs]⟩

theorem Reachable.run {n : Nat} {s s' : State} {l : List Op} (h : Reachable n s) (hs : run n s l = some s') :
    Reachable n s' := by
  obtain ⟨ops, ho⟩ := h
  exact ⟨ops ++ l, by rw [run_append ho]; exact hs⟩

/-- Loading the counters one after the other, without interruption. -/
theorem loads {n : Nat} (m : Nat) : ∀ {s : State} {a : Nat} {q : Acquire}, s.acquires[a]? = some (some q) → Scan q → q.next + m ≤ n →
    ∃ q', Pool.run n s (List.replicate m (.load a)) = some { s with acquires := s.acquires.set a (some q') } ∧ Scan q' ∧
      q'.next = q.next + m ∧ q'.seen = q.seen ++ (List.range' q.next m).map s.count := by
  induction m with
  | zero =>
    intro s a q hq hsc _
    refine ⟨q, ?_, hsc, rfl, by simp⟩
    have : s.acquires.set a (some q) = s.acquires := by
      apply List.ext_getElem?
      intro i
      rw [List.getElem?_set]
      split
      · rename_i h; subst h
        rw [hq]
        simp [(List.getElem?_eq_some_iff.1 hq).1]
      · rfl
    rw [List.replicate_zero, Pool.run, this]
  | succ m ih =>
    intro s a q hq hsc hle
    have hlt : q.next < n := by omega
    have ha := (List.getElem?_eq_some_iff.1 hq).1
    obtain ⟨q1, hq1⟩ : ∃ q1 : Acquire, q1 = Acquire.mk q.pool (q.next + 1) (better q.best q.next (s.count q.next))
      (q.seen ++ [s.count q.next]) := ⟨_, rfl⟩
    have hst : Pool.step n s (.load a) = some { s with acquires := s.acquires.set a (some q1) } := by
      simp only [Pool.step, hq, hlt, if_true, hq1]
    obtain ⟨q', h1, h2, h3, h4⟩ := ih (s := { s with acquires := s.acquires.set a (some q1) }) (a := a) (q := q1)
        (by simp [ha]) (hq1 ▸ hsc.load _) (by simp [hq1]; omega)
    refine ⟨q', ?_, h2, ?_, ?_⟩
    · rw [List.replicate_succ, Pool.run, hst, Option.bind_some, h1]
      simp
    · rw [h3, hq1]; simp; omega
    · rw [h4, hq1]
      simp [List.range'_succ]

end Bromine.Pool
