import Verif.Lemmas.DataLock
/-
C85: guards of the shared data.
-/
namespace Bromine.Props
open Bromine Bromine.Spec Bromine.DataLock

section
variable {K V : Type} [DecidableEq K]

/-- **C85, who has a guard.** Whatever the tasks do: of the requests that were made and not dropped, those have a guard whose turn it is (the first; and if it reads, those after it up to the first that wants to write), and the others wait. -/
theorem C85_who (d : K → Option V) (ops : List (DataLock.Op K V)) (s : DataLock.State K V) (hr : DataLock.run { data := d } ops = some s) (g : Guard) :
    (g ∈ s.held ↔ Turn (requests ops) g) ∧ (g ∈ s.queue ↔ g ∈ requests ops ∧ ¬ Turn (requests ops) g) := by
  have h := linv_requests hr
  have ht := h.turn g
  refine ⟨ht, ?_⟩
  have hn := h.nodup
  rw [← ht, ← h.all]
  rw [← h.all, List.map_append, List.nodup_append] at hn
  constructor
  · intro hq
    exact ⟨List.mem_append_right _ hq, fun hh => hn.2.2 _ (List.mem_map_of_mem hh) _ (List.mem_map_of_mem hq) rfl⟩
  · rintro ⟨h1, h2⟩
    exact (List.mem_append.1 h1).resolve_left h2

/-- **C85, exclusion.** If there is a guard for writing, there is no other guard. -/
theorem C85_exclusive (d : K → Option V) (ops : List (DataLock.Op K V)) (s : DataLock.State K V) (hr : DataLock.run { data := d } ops = some s) (g : Guard) (hg : g ∈ s.held) (hw : g.mode = .write) : s.held = [g] := by
  have h := linv_requests hr
  rcases h.excl with he | ⟨x, he⟩
  · rw [he g hg] at hw; cases hw
  · rw [he] at hg ⊢
    rw [List.mem_singleton.1 hg]

/-- **C85, undisturbed.** As long as a guard exists, data is written through this guard only, and if it is for reading, not at all. -/
theorem C85_undisturbed (d : K → Option V) (ops1 ops2 : List (DataLock.Op K V)) (s s' : DataLock.State K V) (h1 : DataLock.run { data := d } ops1 = some s) (h2 : DataLock.run s ops2 = some s') (g : Guard)
    (hg : g ∈ s.held) (hg' : g ∈ s'.held) : (∀ i k v, .put i k v ∈ ops2 → g.mode = .write ∧ i = g.id) ∧ (g.mode = .read → s'.data = s.data) := by
  have h := undisturbed ops2 (linv_requests h1) h2 hg hg'
  refine ⟨h, fun hm => ?_⟩
  funext k
  rw [data_run k ops2 h2]
  have hno : ∀ i k v, DataLock.Op.put i k v ∉ ops2 := fun i k v hp => by have := (h i k v hp).1; rw [hm] at this; cases this
  clear h h2
  induction ops2 with
  | nil => rfl
  | cons op ops2 ih =>
    cases op with
    | put i k v => exact absurd (by simp) (hno i k v)
    | _ => exact ih fun i k v hp => hno i k v (by simp [hp])

/-- **C85, reads.** What is read under a key is what was written last under it, by whichever guard. -/
theorem C85_reads (d : K → Option V) (ops : List (DataLock.Op K V)) (s s' : DataLock.State K V) (hr : DataLock.run { data := d } ops = some s) (i : Nat) (k : K) (hg : DataLock.step s (.get i k) = some s') :
    s'.seen = s.seen ++ [(i, k, lastPut d k ops)] := by
  rw [← data_run k ops hr]
  simp only [DataLock.step] at hg
  split at hg <;> cases hg
  rfl

/-- **C85, with a guard only.** Data is read through a guard whose turn it is, and written through such a guard for writing. -/
theorem C85_guarded (d : K → Option V) (ops : List (DataLock.Op K V)) (s : DataLock.State K V) (hr : DataLock.run { data := d } ops = some s) (i : Nat) (k : K) :
    ((DataLock.step s (.get i k)).isSome ↔ ∃ g, g.id = i ∧ Turn (requests ops) g) ∧ ∀ v, (DataLock.step s (.put i k v)).isSome ↔ ∃ g, g.id = i ∧ g.mode = .write ∧ Turn (requests ops) g := by
  have ht := fun g => (C85_who d ops s hr g).1
  refine ⟨?_, fun v => ?_⟩
  · simp only [DataLock.step]
    split
    · rename_i h
      obtain ⟨g, h1, h2⟩ := List.any_eq_true.1 h
      exact ⟨fun _ => ⟨g, by simpa using h2, (ht g).1 h1⟩, fun _ => rfl⟩
    · rename_i h
      refine ⟨fun h => (by cases h), fun ⟨g, h1, h2⟩ => absurd (List.any_eq_true.2 ⟨g, (ht g).2 h2, by simpa using h1⟩) h⟩
  · simp only [DataLock.step]
    split
    · rename_i h
      obtain ⟨g, h1, h2⟩ := List.any_eq_true.1 h
      have h2' : g.id = i ∧ g.mode = .write := by simpa using h2
      exact ⟨fun _ => ⟨g, h2'.1, h2'.2, (ht g).1 h1⟩, fun _ => rfl⟩
    · rename_i h
      refine ⟨fun h => (by cases h), fun ⟨g, h1, h3, h2⟩ => absurd (List.any_eq_true.2 ⟨g, (ht g).2 h2, by simpa using ⟨h1, h3⟩⟩) h⟩

/-- **C85, waiting for oneself.** A task that has a guard asks for another. It gets it at once exactly if both are for reading and nobody has asked for a guard for writing. Otherwise it waits as long as it keeps the first guard and the
requests for guards that wait are not dropped, whatever happens: it never gets the second guard. -/
theorem C85_second_guard (d : K → Option V) (ops : List (DataLock.Op K V)) (s s1 : DataLock.State K V) (hr : DataLock.run { data := d } ops = some s) (g1 g2 : Guard) (m : Mode) (hg : g1 ∈ s.held)
    (ha : DataLock.step s (.ask g1.task m) = some s1) (h2 : g2 = { id := s.next, task := g1.task, mode := m }) :
    (g2 ∈ s1.held ↔ g1.mode = .read ∧ m = .read ∧ ∀ g ∈ requests ops, g.mode = .read) ∧
    (g2 ∉ s1.held → ∀ ops' s', DataLock.run s1 ops' = some s' → .drop g1.id ∉ ops' → (∀ g ∈ s.queue, .drop g.id ∉ ops') → g2 ∉ s'.held) := by
  have i0 := linv_requests hr
  have i1 := linv_step i0 ha
  generalize hn : (ops.foldl note (0, [])).1 = n at i0 i1
  generalize hl : requests ops = l at i0 i1 ⊢
  have hgl : g1 ∈ l := i0.all ▸ List.mem_append_left _ hg
  have e2 : g2 = { id := n, task := g1.task, mode := m } := by rw [h2, i0.next]
  have hl1 : (note (n, l) (.ask g1.task m : DataLock.Op K V)).2 = l ++ [g2] := by rw [e2]; rfl
  have key : ∀ (a b : List Guard), l ++ [g2] = a ++ g2 :: b → a = l ∧ b = [] := by
    intro a b hab
    have hnot : g2 ∉ l := fun hx => by have := i0.old g2 hx; rw [e2] at this; exact absurd this (Nat.lt_irrefl n)
    rcases List.append_eq_append_iff.1 hab with ⟨z, h3, h4⟩ | ⟨z, h3, h4⟩
    · cases z with
      | nil => simp only [List.nil_append, List.cons.injEq] at h4; rw [List.append_nil] at h3; exact ⟨h3, h4.2.symm⟩
      | cons y z => simp at h4
    · cases z with
      | nil => simp only [List.nil_append, List.cons.injEq] at h4; rw [List.append_nil] at h3; exact ⟨h3.symm, h4.2⟩
      | cons y z =>
        simp only [List.cons_append, List.cons.injEq] at h4
        exact absurd (by rw [h3, ← h4.1]; simp) hnot
  have hiff : g2 ∈ s1.held ↔ g1.mode = .read ∧ m = .read ∧ ∀ g ∈ l, g.mode = .read := by
    rw [i1.turn, hl1]
    constructor
    · rintro ⟨a, b, h3, h4⟩
      obtain ⟨rfl, rfl⟩ := key a b h3
      rcases h4 with h4 | ⟨h4, h5⟩
      · rw [h4] at hgl; cases hgl
      · exact ⟨h5 g1 hgl, by rw [h2] at h4; exact h4, h5⟩
    · rintro ⟨-, h4, h5⟩
      exact ⟨l, [], rfl, .inr ⟨by rw [h2]; exact h4, h5⟩⟩
  refine ⟨hiff, fun hno ops' s' hr' hd1 hd2 hg2 => ?_⟩
  -- a guard that is before the second one and excludes it
  have hblock : m = .write ∨ ∃ w ∈ l, w.mode = .write ∧ (w = g1 ∨ w ∈ s.queue) := by
    cases m with
    | write => exact .inl rfl
    | read =>
      right
      by_cases hall : ∀ g ∈ l, g.mode = .read
      · exact absurd (hiff.2 ⟨hall g1 hgl, rfl, hall⟩) hno
      · obtain ⟨w, hw⟩ := Classical.not_forall.1 hall
        obtain ⟨hw, hm⟩ := Classical.not_imp.1 hw
        have hm : w.mode = .write := by cases h : w.mode with | read => exact absurd h hm | write => rfl
        refine ⟨w, hw, hm, ?_⟩
        rcases List.mem_append.1 (i0.all ▸ hw : w ∈ s.held ++ s.queue) with hq | hq
        · left
          rcases i0.excl with he | ⟨x, he⟩
          · rw [he w hq] at hm; cases hm
          · rw [he] at hq hg
            rw [List.mem_singleton.1 hq, List.mem_singleton.1 hg]
        · exact .inr hq
  obtain ⟨w, hw, hex, hnd⟩ : ∃ w ∈ l, (m = .write ∨ w.mode = .write) ∧ .drop w.id ∉ ops' := by
    rcases hblock with rfl | ⟨w, hw, hm, rfl | hq⟩
    · exact ⟨g1, hgl, .inl rfl, hd1⟩
    · exact ⟨w, hw, .inr hm, hd1⟩
    · exact ⟨w, hw, .inr hm, hd2 w hq⟩
  have hgn : g2.id < (note (n, l) (.ask g1.task m : DataLock.Op K V)).1 := by rw [e2]; exact Nat.lt_succ_self n
  have i2 := linv_run ops' i1 hr'
  have hd3 : .drop g2.id ∉ ops' := fun hx => not_after_drop ops' hgn hx (i2.all ▸ List.mem_append_left _ hg2)
  have hsub := keeps_order (w := w) (g := g2) ops' (x := note (n, l) (.ask g1.task m : DataLock.Op K V)) hnd hd3 (by
    rw [hl1]; exact List.Sublist.append (l₁ := [w]) (List.singleton_sublist.2 hw) (List.Sublist.refl _))
  obtain ⟨a, b, h5, h6⟩ := (i2.turn g2).1 hg2
  have hnod := i2.nodup
  rw [h5] at hsub hnod
  have hwa : w ∈ a := before_of_sublist hnod hsub
  rcases h6 with rfl | ⟨h6, h7⟩
  · cases hwa
  · rcases hex with hex | hex
    · rw [h2] at h6; simp only at h6; rw [hex] at h6; cases h6
    · rw [h7 w hwa] at hex; cases hex

/-- **C85, everybody gets a turn.** If every guard is dropped some time, then every request is answered with a guard some time (or dropped), whatever else the tasks do. -/
theorem C85_fair (d : K → Option V) (σ : Nat → DataLock.Op K V) (st : Nat → DataLock.State K V) (h0 : st 0 = { data := d }) (hs : ∀ t, DataLock.step (st t) (σ t) = some (st (t + 1)))
    (hd : ∀ t g, g ∈ (st t).held → ∃ t', t ≤ t' ∧ σ t' = .drop g.id) : ∀ t g, g ∈ (st t).queue → ∃ t', t ≤ t' ∧ (g ∈ (st t').held ∨ σ t' = .drop g.id) := by
  obtain ⟨l, hl0, hl⟩ : ∃ l : Nat → Nat × List Guard, l 0 = (0, []) ∧ ∀ t, l (t + 1) = note (l t) (σ t) :=
    ⟨fun t => Nat.rec (0, []) (fun t x => note x (σ t)) t, rfl, fun _ => rfl⟩
  have hi : ∀ t, LInv (l t).1 (l t).2 (st t) := by
    intro t
    induction t with
    | zero => rw [h0, hl0]; exact linv_init d
    | succ t ih => rw [hl]; exact linv_step ih (hs t)
  have key : ∀ (k t : Nat) (g : Guard) (a b : List Guard), a.length = k → (l t).2 = a ++ g :: b → ∃ t', t ≤ t' ∧ (g ∈ (st t').held ∨ σ t' = .drop g.id) := by
    intro k
    induction k using Nat.strongRecOn with
    | ind k ih =>
      intro t g a b hk hab
      cases a with
      | nil => exact ⟨t, Nat.le_refl _, .inl (((hi t).turn g).2 ⟨[], b, hab, .inl rfl⟩)⟩
      | cons x a =>
        have hx : x ∈ (st t).held := ((hi t).turn x).2 ⟨[], a ++ g :: b, by rw [hab]; rfl, .inl rfl⟩
        obtain ⟨t', h1, h2⟩ := hd t x hx
        rcases ahead hl hab (t' - t + 1) with ⟨j, -, h3⟩ | ⟨a', b', h3, h4, h5⟩
        · exact ⟨t + j, by omega, .inr h3⟩
        · have h6 := h5 x.id (t' - t) (by omega) (by rw [show t + (t' - t) = t' by omega]; exact h2)
          have h7 : a'.length < k := by
            rcases Nat.lt_or_ge a'.length k with h | h
            · exact h
            · exfalso
              have := h4.eq_of_length (by have := h4.length_le; simp only [List.length_cons] at *; omega)
              rw [this] at h6
              exact h6 x (by simp) rfl
          obtain ⟨t'', h8, h9⟩ := ih _ h7 (t + (t' - t + 1)) g a' b' rfl h3
          exact ⟨t'', by omega, h9⟩
  intro t g hg
  obtain ⟨a, b, hab⟩ := List.append_of_mem ((hi t).all ▸ List.mem_append_right _ hg : g ∈ (l t).2)
  exact key _ t g a b rfl hab

end

/-- Task 1 reads, task 2 wants to write, task 1 wants to read once more without dropping its first guard: both wait. After task 2 has given up, task 1 goes on. -/
def opsGuards : List (DataLock.Op Nat Nat) := [.ask 1 .write, .put 0 7 (some 70), .drop 0, .ask 1 .read, .ask 2 .write, .get 1 7]

example : (DataLock.run { data := fun _ => none } opsGuards).map (fun s => (s.held, s.queue)) = some ([⟨1, 1, .read⟩], [⟨2, 2, .write⟩]) := by decide +kernel

example : (DataLock.run { data := fun _ => none } opsGuards).map DataLock.State.seen = some [(1, 7, some 70)] := by decide +kernel

example : (DataLock.run { data := fun _ => none } (opsGuards ++ [.ask 1 .read])).map (fun s => (s.held, s.queue)) =
    some ([⟨1, 1, .read⟩], [⟨2, 2, .write⟩, ⟨3, 1, .read⟩]) := by decide +kernel

example : (DataLock.run { data := fun _ => none } (opsGuards ++ [.ask 1 .read, .drop 2])).map (fun s => (s.held, s.queue)) =
    some ([⟨1, 1, .read⟩, ⟨3, 1, .read⟩], []) := by decide +kernel

example : requests opsGuards = [⟨1, 1, .read⟩, ⟨2, 2, .write⟩] ∧ lastPut (fun _ => none) 7 opsGuards = some 70 := by decide

/-- A schedule as in `C85_fair`: again and again somebody asks for a guard for writing while somebody else has one, who then drops it. -/
def fairOps : Nat → DataLock.Op Nat Nat := fun t => if t = 0 then .ask 0 .write else if t % 2 = 1 then .ask 0 .write else .drop (t / 2 - 1)

def fairStates : Nat → DataLock.State Nat Nat := fun t =>
  if t = 0 then { data := fun _ => none }
  else if t % 2 = 1 then { data := fun _ => none, held := [⟨t / 2, 0, .write⟩], next := t / 2 + 1 }
  else { data := fun _ => none, held := [⟨t / 2 - 1, 0, .write⟩], queue := [⟨t / 2, 0, .write⟩], next := t / 2 + 1 }

example : fairStates 0 = { data := fun _ => none } ∧ (∀ t, DataLock.step (fairStates t) (fairOps t) = some (fairStates (t + 1))) ∧
    (∀ t g, g ∈ (fairStates t).held → ∃ t', t ≤ t' ∧ fairOps t' = .drop g.id) ∧ ⟨1, 0, .write⟩ ∈ (fairStates 2).queue := by
  refine ⟨rfl, fun t => ?_, fun t g hg => ?_, by decide⟩
  · obtain ⟨k, rfl | rfl⟩ : ∃ k, t = 2 * k ∨ t = 2 * k + 1 := ⟨t / 2, by omega⟩
    · cases k with
      | zero => rfl
      | succ k =>
        have e1 : (2 * (k + 1) + 1) / 2 = k + 1 := by omega
        have e2 : 2 * (k + 1) / 2 = k + 1 := by omega
        have e3 : 2 * (k + 1) % 2 ≠ 1 := by omega
        have e4 : (2 * (k + 1) + 1) % 2 = 1 := by omega
        simp [fairStates, fairOps, e1, e2, DataLock.step, grant, free]
    · have e1 : (2 * k + 1) / 2 = k := by omega
      have e2 : (2 * k + 1 + 1) / 2 = k + 1 := by omega
      have e3 : (2 * k + 1 + 1) % 2 ≠ 1 := by omega
      have e4 : (2 * k + 1) % 2 = 1 := by omega
      simp [fairStates, fairOps, e1, e2, e3, e4, DataLock.step, free]
  · refine ⟨2 * (g.id + 1), ?_, ?_⟩
    · unfold fairStates at hg
      split at hg
      · cases hg
      · split at hg <;> (rw [List.mem_singleton.1 hg]; simp only; omega)
    · have e2 : 2 * (g.id + 1) / 2 = g.id + 1 := by omega
      simp [fairOps, e2]

end Bromine.Props
