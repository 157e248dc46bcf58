import Verif.Spec.DataLock
namespace Bromine.DataLock
open Bromine Spec

variable {K V : Type} [DecidableEq K]

/-- The lock is consistent. -/
structure LInv (n : Nat) (l : List Guard) (s : State K V) : Prop where
  all : s.held ++ s.queue = l
  next : s.next = n
  old : ∀ g ∈ l, g.id < n
  nodup : (l.map Guard.id).Nodup
  excl : (∀ g ∈ s.held, g.mode = .read) ∨ ∃ g, s.held = [g]
  full : ∀ g q, s.queue = g :: q → free s.held g.mode = false

theorem free_iff {held : List Guard} {m : Mode} : free held m = true ↔ held = [] ∨ (m = .read ∧ ∀ g ∈ held, g.mode = .read) := by
  cases m with
  | read =>
    simp only [free, List.all_eq_true, beq_iff_eq, true_and]
    constructor
    · exact .inr
    · rintro (rfl | h)
      · simp
      · exact h
  | write => simp [free]

theorem grant_spec : ∀ (queue held held' queue' : List Guard), grant held queue = (held', queue') → ((∀ g ∈ held, g.mode = .read) ∨ ∃ g, held = [g]) →
    held' ++ queue' = held ++ queue ∧ ((∀ g ∈ held', g.mode = .read) ∨ ∃ g, held' = [g]) ∧ (∀ g q, queue' = g :: q → free held' g.mode = false) ∧ held <+: held' := by
  intro queue
  induction queue with
  | nil => intro held held' queue' h he; cases h; exact ⟨rfl, he, by simp, List.prefix_refl _⟩
  | cons g queue ih =>
    intro held held' queue' h he
    simp only [grant] at h
    split at h
    · rename_i hf
      have : (∀ x ∈ held ++ [g], x.mode = .read) ∨ ∃ x, held ++ [g] = [x] := by
        rcases free_iff.1 hf with rfl | ⟨h1, h2⟩
        · exact .inr ⟨g, rfl⟩
        · left
          intro x hx
          rcases List.mem_append.1 hx with hx | hx
          · exact h2 x hx
          · rw [List.mem_singleton.1 hx]; exact h1
      obtain ⟨g1, g2, g3, g4⟩ := ih _ _ _ h this
      exact ⟨by rw [g1]; simp, g2, g3, (List.prefix_append _ _).trans g4⟩
    · rename_i hf
      cases h
      refine ⟨rfl, he, ?_, List.prefix_refl _⟩
      intro x q hx
      cases hx
      simpa using hf

omit [DecidableEq K] in
theorem linv_init (d : Assembly.TypeMap K V) : LInv 0 [] { data := d } :=
  ⟨rfl, rfl, by simp, by simp, .inl (by simp), by simp⟩

theorem linv_step {n : Nat} {l : List Guard} {s s' : State K V} {op : Op K V} (h : LInv n l s) (hs : step s op = some s') : LInv (note (n, l) op).1 (note (n, l) op).2 s' := by
  obtain ⟨h1, h2, h3, h4, h5, h6⟩ := h
  cases op with
  | ask t m =>
    simp only [note]
    have hold : ∀ g ∈ l ++ [({ id := n, task := t, mode := m } : Guard)], g.id < n + 1 := by
      intro g hg
      rcases List.mem_append.1 hg with hg | hg
      · exact Nat.lt_succ_of_lt (h3 g hg)
      · rw [List.mem_singleton.1 hg]; exact Nat.lt_succ_self n
    have hnd : ((l ++ [({ id := n, task := t, mode := m } : Guard)]).map Guard.id).Nodup := by
      rw [List.map_append, List.nodup_append]
      refine ⟨h4, by simp, ?_⟩
      intro a ha b hb hab
      obtain ⟨g, hg, rfl⟩ := List.mem_map.1 ha
      simp only [List.map_cons, List.map_nil, List.mem_singleton] at hb
      have := h3 g hg
      omega
    simp only [step] at hs
    split at hs
    · rename_i hf
      rw [Bool.and_eq_true, List.isEmpty_iff] at hf
      obtain ⟨hq, hf⟩ := hf
      cases hs
      rw [hq, List.append_nil] at h1
      refine ⟨by simp [hq, ← h1, h2], by simp [h2], hold, hnd, ?_, by simp [hq]⟩
      rcases free_iff.1 hf with hh | ⟨g1, g2⟩
      · exact .inr ⟨_, by rw [hh]; rfl⟩
      · left
        intro x hx
        rcases List.mem_append.1 hx with hx | hx
        · exact g2 x hx
        · rw [List.mem_singleton.1 hx]; exact g1
    · rename_i hf
      cases hs
      refine ⟨by simp [← h1, h2], by simp [h2], hold, hnd, h5, ?_⟩
      intro g q hg
      cases hq : s.queue with
      | nil =>
        simp only [hq, List.nil_append, List.cons.injEq] at hg
        rw [← hg.1]
        simpa [hq] using hf
      | cons g' q' =>
        simp only [hq, List.cons_append, List.cons.injEq] at hg
        rw [← hg.1]
        exact h6 _ _ hq
  | drop i =>
    simp only [note]
    simp only [step] at hs
    split at hs
    · generalize hg : grant (s.held.filter fun g => g.id != i) (s.queue.filter fun g => g.id != i) = v at hs
      obtain ⟨held, queue⟩ := v
      cases hs
      have he : (∀ g ∈ s.held.filter (fun g => g.id != i), g.mode = .read) ∨ ∃ g, s.held.filter (fun g => g.id != i) = [g] := by
        rcases h5 with h5 | ⟨g, h5⟩
        · exact .inl fun g hg => h5 g (List.mem_filter.1 hg).1
        · rw [h5]
          by_cases hi : (g.id != i) = true
          · exact .inr ⟨g, by simp [hi]⟩
          · exact .inl (by simp [hi])
      obtain ⟨g1, g2, g3, -⟩ := grant_spec _ _ _ _ hg he
      refine ⟨?_, h2, fun g hg => h3 g (List.mem_filter.1 hg).1, ?_, g2, g3⟩
      · simp only
        rw [g1, ← List.filter_append, h1]
        congr 1
        funext g
        simp [bne]
        rw [Bool.eq_iff_iff]; simp
      · exact List.Nodup.sublist (List.Sublist.map _ List.filter_sublist) h4
    · cases hs
  | get i k =>
    simp only [step] at hs
    split at hs
    · cases hs; exact ⟨h1, h2, h3, h4, h5, h6⟩
    · cases hs
  | put i k v =>
    simp only [step] at hs
    split at hs
    · cases hs; exact ⟨h1, h2, h3, h4, h5, h6⟩
    · cases hs

theorem linv_run : ∀ (ops : List (Op K V)) {n : Nat} {l : List Guard} {s s' : State K V}, LInv n l s → run s ops = some s' →
    LInv (ops.foldl note (n, l)).1 (ops.foldl note (n, l)).2 s' := by
  intro ops
  induction ops with
  | nil => intro n l s s' h hr; cases hr; exact h
  | cons op ops ih =>
    intro n l s s' h hr
    simp only [run, Option.bind_eq_some_iff] at hr
    obtain ⟨s1, h1, h2⟩ := hr
    exact ih (linv_step h h1) h2

theorem linv_requests {d : Assembly.TypeMap K V} {ops : List (Op K V)} {s : State K V} (hr : run { data := d } ops = some s) :
    LInv (ops.foldl note (0, [])).1 (requests ops) s := linv_run ops (linv_init d) hr

omit [DecidableEq K] in
/-- Those who have a guard are those whose turn it is. -/
theorem LInv.turn {n : Nat} {l : List Guard} {s : State K V} (h : LInv n l s) (g : Guard) : g ∈ s.held ↔ Turn l g := by
  obtain ⟨h1, h2, h3, h4, h5, h6⟩ := h
  constructor
  · intro hg
    obtain ⟨a, b, hab⟩ := List.append_of_mem hg
    refine ⟨a, b ++ s.queue, by rw [← h1, hab]; simp, ?_⟩
    rcases h5 with h5 | ⟨x, h5⟩
    · exact .inr ⟨h5 g hg, fun y hy => h5 y (by rw [hab]; simp [hy])⟩
    · left
      rw [h5] at hab
      cases a with
      | nil => rfl
      | cons y a => simp at hab
  · rintro ⟨a, b, hl, ht⟩
    by_cases hg : g ∈ s.held
    · exact hg
    exfalso
    -- the first of the queue is before g, or g itself
    rw [← h1] at hl
    have hpre : s.held <+: a := by
      rcases List.append_eq_append_iff.1 hl with ⟨z, g1, g2⟩ | ⟨z, g1, g2⟩
      · exact ⟨z, g1.symm⟩
      · cases z with
        | nil => exact ⟨[], by rw [g1]; simp⟩
        | cons y z =>
          simp only [List.cons_append, List.cons.injEq] at g2
          exact absurd (by rw [g1, g2.1]; simp) hg
    obtain ⟨z, rfl⟩ := hpre
    rw [List.append_assoc, List.append_cancel_left_eq] at hl
    rcases ht with ht | ⟨ht1, ht2⟩
    · rw [List.append_eq_nil_iff] at ht
      obtain ⟨ht, rfl⟩ := ht
      have := h6 g b hl
      rw [free_iff.2 (.inl ht)] at this
      cases this
    · obtain ⟨y, q, hy, hm⟩ : ∃ y q, s.queue = y :: q ∧ y.mode = .read := by
        cases z with
        | nil => exact ⟨g, b, hl, ht1⟩
        | cons y z => exact ⟨y, z ++ g :: b, hl, ht2 y (by simp)⟩
      have := h6 y q hy
      rw [free_iff.2 (.inr ⟨hm, fun x hx => ht2 x (by simp [hx])⟩)] at this
      cases this


omit [DecidableEq K] in
/-- A request that is gone does not come back. -/
theorem gone_step {n : Nat} {l : List Guard} {op : Op K V} {g : Guard} (hg : g.id < n) (h : g ∉ l) : g.id < (note (n, l) op).1 ∧ g ∉ (note (n, l) op).2 := by
  cases op with
  | ask t m =>
    simp only [note]
    refine ⟨by omega, ?_⟩
    intro hx
    rcases List.mem_append.1 hx with hx | hx
    · exact h hx
    · rw [List.mem_singleton.1 hx] at hg
      exact absurd hg (Nat.lt_irrefl n)
  | drop i => exact ⟨hg, fun hx => h (List.mem_filter.1 hx).1⟩
  | get i k => exact ⟨hg, h⟩
  | put i k v => exact ⟨hg, h⟩

omit [DecidableEq K] in
theorem gone_run : ∀ (ops : List (Op K V)) {n : Nat} {l : List Guard} {g : Guard}, g.id < n → g ∉ l → g ∉ (ops.foldl note (n, l)).2 := by
  intro ops
  induction ops with
  | nil => intro n l g _ h; exact h
  | cons op ops ih =>
    intro n l g hg h
    obtain ⟨h1, h2⟩ := gone_step (op := op) hg h
    exact ih h1 h2

omit [DecidableEq K] in
theorem note_keeps {n : Nat} {a b : List Guard} {g : Guard} (op : Op K V) (h : op ≠ .drop g.id) :
    ∃ a' b', (note (n, a ++ g :: b) op).2 = a' ++ g :: b' ∧ a'.Sublist a ∧ ∀ i, op = .drop i → ∀ x ∈ a', x.id ≠ i := by
  cases op with
  | ask t m => exact ⟨a, b ++ [{ id := n, task := t, mode := m }], by simp [note], List.Sublist.refl _, by simp⟩
  | drop i =>
    have hi : g.id ≠ i := fun hi => h (by rw [hi])
    refine ⟨a.filter fun g => g.id ≠ i, b.filter fun g => g.id ≠ i, by simp [note, hi], List.filter_sublist, ?_⟩
    intro j hj x hx
    cases hj
    simpa using (List.mem_filter.1 hx).2
  | get i k => exact ⟨a, b, rfl, List.Sublist.refl _, by simp⟩
  | put i k v => exact ⟨a, b, rfl, List.Sublist.refl _, by simp⟩

omit [DecidableEq K] in
theorem turn_note {n : Nat} {l : List Guard} {g : Guard} {op : Op K V} (h : Turn l g) (hd : op ≠ .drop g.id) : Turn (note (n, l) op).2 g := by
  obtain ⟨a, b, rfl, ht⟩ := h
  obtain ⟨a', b', h1, h2, -⟩ := note_keeps (n := n) (a := a) (b := b) op hd
  refine ⟨a', b', h1, ?_⟩
  rcases ht with rfl | ⟨h3, h4⟩
  · exact .inl (List.sublist_nil.1 h2)
  · exact .inr ⟨h3, fun x hx => h4 x (h2.subset hx)⟩

omit [DecidableEq K] in
theorem dropped {n : Nat} {l : List Guard} {g : Guard} : g ∉ (note (n, l) (.drop g.id : Op K V)).2 := by
  simp [note]

/-- While a guard exists, nobody else writes. -/
theorem undisturbed : ∀ (ops : List (Op K V)) {n : Nat} {l : List Guard} {s s' : State K V} {g : Guard}, LInv n l s → run s ops = some s' → g ∈ s.held → g ∈ s'.held →
    ∀ i k v, .put i k v ∈ ops → g.mode = .write ∧ i = g.id := by
  intro ops
  induction ops with
  | nil => intro n l s s' g _ _ _ _ i k v h; cases h
  | cons op ops ih =>
    intro n l s s' g h hr hg hg' i k v hp
    simp only [run, Option.bind_eq_some_iff] at hr
    obtain ⟨s1, h1, h2⟩ := hr
    have i1 := linv_step h h1
    have i2 := linv_run ops i1 h2
    have hgl : g ∈ l := h.all ▸ List.mem_append_left _ hg
    have hd : op ≠ .drop g.id := by
      rintro rfl
      have : g ∉ s'.held := fun hx => gone_run ops (n := (note (n, l) (.drop g.id : Op K V)).1) (h.old g hgl) dropped (i2.all ▸ List.mem_append_left _ hx)
      exact this hg'
    rcases List.mem_cons.1 hp with rfl | hp
    · simp only [step] at h1
      split at h1
      · rename_i ha
        obtain ⟨x, hx, hx'⟩ := List.any_eq_true.1 ha
        rw [Bool.and_eq_true, beq_iff_eq, beq_iff_eq] at hx'
        rcases h.excl with he | ⟨y, he⟩
        · rw [he x hx] at hx'; cases hx'.2
        · rw [he] at hx hg
          rw [List.mem_singleton.1 hx] at hx'
          rw [List.mem_singleton.1 hg]
          exact ⟨hx'.2, hx'.1.symm⟩
      · cases h1
    · exact ih i1 h2 ((i1.turn g).2 (turn_note ((h.turn g).1 hg) hd)) hg' i k v hp

theorem data_run (k : K) : ∀ (ops : List (Op K V)) {s s' : State K V}, run s ops = some s' → s'.data k = lastPut s.data k ops := by
  intro ops
  induction ops with
  | nil => intro s s' hr; cases hr; rfl
  | cons op ops ih =>
    intro s s' hr
    simp only [run, Option.bind_eq_some_iff] at hr
    obtain ⟨s1, h1, h2⟩ := hr
    rw [ih h2]
    cases op with
    | ask t m => simp only [step] at h1; split at h1 <;> cases h1 <;> rfl
    | drop i => simp only [step] at h1; split at h1 <;> cases h1; rfl
    | get i k => simp only [step] at h1; split at h1 <;> cases h1; rfl
    | put i k' v =>
      simp only [step] at h1
      split at h1 <;> cases h1
      simp only [lastPut]
      congr 1
      cases v <;> rfl

omit [DecidableEq K] in
/-- What comes before a request that is not dropped gets less. -/
theorem ahead {σ : Nat → Op K V} {l : Nat → Nat × List Guard} (hl : ∀ t, l (t + 1) = note (l t) (σ t)) {t : Nat} {a b : List Guard} {g : Guard} (h : (l t).2 = a ++ g :: b) :
    ∀ k, (∃ j, j < k ∧ σ (t + j) = .drop g.id) ∨ ∃ a' b', (l (t + k)).2 = a' ++ g :: b' ∧ a'.Sublist a ∧ ∀ i j, j < k → σ (t + j) = .drop i → ∀ x ∈ a', x.id ≠ i := by
  intro k
  induction k with
  | zero => exact .inr ⟨a, b, h, List.Sublist.refl _, by omega⟩
  | succ k ih =>
    rcases ih with ⟨j, h1, h2⟩ | ⟨a', b', h1, h2, h3⟩
    · exact .inl ⟨j, by omega, h2⟩
    · by_cases hd : σ (t + k) = .drop g.id
      · exact .inl ⟨k, by omega, hd⟩
      · right
        obtain ⟨a'', b'', g1, g2, g3⟩ := note_keeps (n := (l (t + k)).1) (a := a') (b := b') (σ (t + k)) hd
        refine ⟨a'', b'', ?_, g2.trans h2, ?_⟩
        · rw [← Nat.add_assoc, hl, ← g1, ← h1]
        · intro i j hj hi x hx
          by_cases hjk : j = k
          · subst hjk; exact g3 i hi x hx
          · exact h3 i j (by omega) hi x (g2.subset hx)

omit [DecidableEq K] in
theorem not_after_drop : ∀ (ops : List (Op K V)) {x : Nat × List Guard} {g : Guard}, g.id < x.1 → .drop g.id ∈ ops → g ∉ (ops.foldl note x).2 := by
  intro ops
  induction ops with
  | nil => intro x g _ h; cases h
  | cons op ops ih =>
    intro x g hx h
    obtain ⟨n, l⟩ := x
    rcases List.mem_cons.1 h with rfl | h
    · exact gone_run ops (n := n) hx (dropped (K := K) (V := V) (n := n))
    · refine ih (x := note (n, l) op) ?_ h
      cases op <;> simp only [note] <;> (try exact hx)
      simp only at hx
      omega

omit [DecidableEq K] in
theorem keeps_order {w g : Guard} : ∀ (ops : List (Op K V)) {x : Nat × List Guard}, .drop w.id ∉ ops → .drop g.id ∉ ops → [w, g].Sublist x.2 → [w, g].Sublist (ops.foldl note x).2 := by
  intro ops
  induction ops with
  | nil => intro x _ _ h; exact h
  | cons op ops ih =>
    intro x hw hg h
    refine ih (x := note x op) (fun h => hw (by simp [h])) (fun h => hg (by simp [h])) ?_
    obtain ⟨n, l⟩ := x
    cases op with
    | ask t m => exact h.trans (List.sublist_append_left _ _)
    | drop i =>
      have h1 : w.id ≠ i := fun hi => hw (by simp [hi])
      have h2 : g.id ≠ i := fun hi => hg (by simp [hi])
      have := h.filter fun g => decide (g.id ≠ i)
      simpa [note, h1, h2] using this
    | get i k => exact h
    | put i k v => exact h

theorem before_of_sublist {w g : Guard} {a b : List Guard} (hn : ((a ++ g :: b).map Guard.id).Nodup) (h : [w, g].Sublist (a ++ g :: b)) : w ∈ a := by
  induction a with
  | nil =>
    simp only [List.nil_append, List.map_cons, List.nodup_cons] at hn
    have : g ∈ b := by
      cases h with
      | cons _ h => exact h.subset (by simp)
      | cons_cons _ h => exact h.subset (by simp)
    exact absurd (List.mem_map_of_mem this) hn.1
  | cons x a ih =>
    cases h with
    | cons _ h =>
      simp only [List.cons_append, List.map_cons, List.nodup_cons] at hn
      exact List.mem_cons_of_mem _ (ih hn.2 h)
    | cons_cons _ h => exact List.mem_cons_self

end Bromine.DataLock
