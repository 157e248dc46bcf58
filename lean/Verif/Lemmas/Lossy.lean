import Verif.Model.Lossy
import Verif.Lemmas.System
/-
Invariants of two endpoints joined by connections that may lose events.
-/
namespace Bromine.Lossy
open Bromine.Endpoint Bromine.System Spec

variable {CA CB : Type} {ca : Config CA} {cb : Config CB} {linked : Nat → Bool}

theorem reachable_left {s : Sys CA CB} (h : Reachable ca cb linked s) : Endpoint.Reachable ca s.a := by
  induction h with
  | init => exact ⟨[], rfl⟩
  | left _ hs _ ih => exact ih.step hs
  | right _ _ _ ih => exact ih

theorem reachable_right {s : Sys CA CB} (h : Reachable ca cb linked s) : Endpoint.Reachable cb s.b := by
  induction h with
  | init => exact ⟨[], rfl⟩
  | right _ hs _ ih => exact ih.step hs
  | left _ _ _ ih => exact ih

theorem reachable_swap {s : Sys CA CB} (h : Reachable ca cb linked s) : Reachable cb ca linked s.swap := by
  induction h with
  | init => exact .init
  | left _ hs hc ih => exact .right ih hs hc
  | right _ hs hc ih => exact .left ih hs hc

/-- Linked connections lose events at most. -/
theorem carries {s : Sys CA CB} (h : Reachable ca cb linked s) : Carries linked s.a s.b ∧ Carries linked s.b s.a := by
  induction h with
  | init => exact ⟨fun _ _ => by simp, fun _ _ => by simp⟩
  | left _ hs hc ih =>
    refine ⟨hc, fun c hl => (ih.2 c hl).trans ?_⟩
    exact ((stepR_of_step hs).ext.out c).sublist.map _
  | right _ hs hc ih =>
    refine ⟨fun c hl => (ih.1 c hl).trans ?_, hc⟩
    exact ((stepR_of_step hs).ext.out c).sublist.map _

/-- The system without loss is a special case. -/
theorem of_system {s : Sys CA CB} (h : System.Reachable ca cb linked s) : Reachable ca cb linked s := by
  refine System.reachable_induction (P := fun s => Reachable ca cb linked s) .init ?_ h
  intro s op s' hre ih hs
  have hre' : System.Reachable ca cb linked s' := by
    obtain ⟨ops, ho⟩ := hre
    refine ⟨ops ++ [op], ?_⟩
    suffices ∀ (l : List System.Op) (y : System.Sys CA CB), System.run ca cb linked y l = some s →
      System.run ca cb linked y (l ++ [op]) = some s' from this ops {} ho
    intro l
    induction l with
    | nil => intro y hy; cases hy; simp [System.run, hs]
    | cons o l ihl =>
      intro y hy
      simp only [System.run, Option.bind_eq_some_iff, List.cons_append] at hy ⊢
      obtain ⟨z, hz, hz'⟩ := hy
      exact ⟨z, hz, ihl z hz'⟩
  have h1 := System.fifo_left hre'
  have h2 := System.fifo_right hre'
  obtain ⟨a', b'⟩ := s'
  rcases System.step_cases hs with ⟨o, g1, g2, _⟩ | ⟨o, g1, g2, _⟩
  · simp only at g1 g2
    subst g2
    exact .left ih g1 fun c hl => (h1 c hl).sublist
  · simp only at g1 g2
    subst g2
    exact .right ih g1 fun c hl => (h2 c hl).sublist

/-- Every event handled on a linked connection was emitted by the other side. -/
theorem task_event {s : Sys CA CB} (h : Reachable ca cb linked s) {t : Nat} {k : Endpoint.Task CB}
    (hk : s.b.tasks t = some k) (hl : linked k.conn = true) :
    k.event ∈ s.b.arrived k.conn ∧ ∃ x ∈ s.a.out k.conn, x.event = k.event := by
  have hre := reachable_right h
  have h1 := taskEntries_eq hre t
  rw [hk] at h1
  have hm : ({ conn := k.conn, event := k.event, dest := .handler t } : Entry) ∈ taskEntries s.b t := by
    rw [h1]; simp [taskEntry]
  have hin : k.event ∈ s.b.arrived k.conn := by
    rw [arrInv hre]
    simp only [List.mem_append, handledOn, List.mem_map, List.mem_filter, decide_eq_true_eq]
    exact .inl (.inl ⟨_, ⟨(List.mem_filter.1 hm).1, rfl⟩, rfl⟩)
  refine ⟨hin, ?_⟩
  have := ((carries h).2 k.conn hl).subset hin
  simpa using this

/-- An event with a reference that arrived at the first side on a linked connection answers an event that the first
side had emitted on that connection. -/
theorem reply_source {s : Sys CA CB} (h : Reachable ca cb linked s) {c : Nat} (hl : linked c = true) {e : Event}
    {id : UInt64} (he : e ∈ s.a.arrived c) (hid : e.referenceId = some id) :
    ∃ y ∈ s.b.out c, y.event = e ∧ ∃ t k, s.b.tasks t = some k ∧ k.conn = c ∧ k.event.id = id ∧
      (y.origin = .task t ∨ y.origin = .final t) ∧ ∃ x ∈ s.a.out c, x.event = k.event := by
  have := ((carries h).1 c hl).subset he
  simp only [List.mem_map] at this
  obtain ⟨y, hy, rfl⟩ := this
  refine ⟨y, hy, rfl, ?_⟩
  have ho := (outInv (reachable_right h)).out c y hy
  rcases hyo : y.origin with _ | t | t
  · rw [hyo] at ho
    rw [ho.1] at hid
    cases hid
  · rw [hyo] at ho
    obtain ⟨k, h1, h2, h3, h4, h5⟩ := ho
    refine ⟨t, k, h1, h2, ?_, .inl rfl, ?_⟩
    · rw [h4] at hid; exact Option.some.inj hid
    · subst h2; exact (task_event h h1 hl).2
  · rw [hyo] at ho
    obtain ⟨k, res, i, h1, h2, h3, h4⟩ := ho
    refine ⟨t, k, h1, h2, ?_, .inr rfl, ?_⟩
    · rw [h3, finalEvent_ref] at hid; exact Option.some.inj hid
    · subst h2; exact (task_event h h1 hl).2

/-- With different ids, and if all events that are handled came from linked connections, ids are not reused in the sense
of `FreshIds`. -/
theorem freshIds' {s : Sys CA CB} (h : Reachable ca cb linked s) (hd : DistinctIds s)
    (hl : ∀ t k, s.a.tasks t = some k → linked k.conn = true) : FreshIds ca s.a := by
  refine ⟨fun r r' q q' hq hq' _ hid => (unique (reachable_left h) hd.left).reqs r r' q q' hq hq' hid, ?_⟩
  intro t k r q hk hq _ hid
  have h1 := (created_mem (reachable_left h)).1 r q hq
  obtain ⟨_, x, hx, hxe⟩ := task_event (reachable_swap h) (t := t) (k := k) hk (hl t k hk)
  have h2 := (created_mem (reachable_right h)).2 k.conn x hx
  rw [hxe, hid] at h2
  exact (List.nodup_append.1 hd).2.2 _ h1 _ h2 rfl

/-- With different ids, and if all connections are linked, ids are not reused in the sense of `FreshIds`. -/
theorem freshIds {s : Sys CA CB} (h : Reachable ca cb linked s) (hd : DistinctIds s)
    (hl : ∀ c, linked c = true) : FreshIds ca s.a := freshIds' h hd fun _ _ _ => hl _

/-! ### Executable runs, for concrete cases -/

/-- A step of a concrete run: of one of the endpoints, or the arrival of the `n`th event emitted on connection `c`. -/
inductive Act where
  | left (op : Endpoint.Op)
  | right (op : Endpoint.Op)
  | toRight (c n : Nat)
  | toLeft (c n : Nat)

/-- One step of a concrete run. -/
def act (ca : Config CA) (cb : Config CB) (linked : Nat → Bool) (s : Sys CA CB) : Act → Option (Sys CA CB)
  | .left op => if isLocal linked op then (Endpoint.step ca s.a op).map fun a => { s with a := a } else none
  | .right op => if isLocal linked op then (Endpoint.step cb s.b op).map fun b => { s with b := b } else none
  | .toRight c n =>
    match ((s.a.out c).map (·.event))[n]? with
    | some e =>
      if (s.b.arrived c ++ [e]).Sublist ((s.a.out c).map (·.event)) then
        (Endpoint.step cb s.b (.arrive c e)).map fun b => { s with b := b }
      else none
    | none => none
  | .toLeft c n =>
    match ((s.b.out c).map (·.event))[n]? with
    | some e =>
      if (s.a.arrived c ++ [e]).Sublist ((s.b.out c).map (·.event)) then
        (Endpoint.step ca s.a (.arrive c e)).map fun a => { s with a := a }
      else none
    | none => none

/-- A concrete run. -/
def acts (ca : Config CA) (cb : Config CB) (linked : Nat → Bool) : Sys CA CB → List Act → Option (Sys CA CB)
  | s, [] => some s
  | s, a :: as => (act ca cb linked s a).bind fun s => acts ca cb linked s as

/-- A step other than an arrival on a linked connection leaves what arrived there unchanged. -/
theorem arrived_of_local {C : Type} {cfg : Config C} {s s' : State C} {op : Endpoint.Op}
    (h : Endpoint.step cfg s op = some s') (hl : isLocal linked op = true) (c : Nat) (hc : linked c = true) :
    s'.arrived c = s.arrived c := by
  have hsr := stepR_of_step h
  cases hsr with
  | arrive c0 e =>
    simp only [isLocal, Bool.not_eq_true'] at hl
    simp only [upd_apply]
    split
    · rename_i hcc; subst hcc; rw [hc] at hl; cases hl
    · rfl
  | _ => rfl

theorem arrived_of_arrive {C : Type} {cfg : Config C} {s s' : State C} {c : Nat} {e : Event}
    (h : Endpoint.step cfg s (.arrive c e) = some s') (c' : Nat) :
    s'.arrived c' = if c' = c then s.arrived c ++ [e] else s.arrived c' := by
  have hsr := stepR_of_step h
  cases hsr
  simp only [upd_apply]

theorem reachable_act {s s' : Sys CA CB} {x : Act} (h : Reachable ca cb linked s) (hx : act ca cb linked s x = some s') :
    Reachable ca cb linked s' := by
  cases x with
  | left op =>
    simp only [act] at hx
    split at hx
    · rename_i hl
      obtain ⟨a, h1, rfl⟩ := Option.map_eq_some_iff.1 hx
      exact .left h h1 fun c hc => by rw [arrived_of_local h1 hl c hc]; exact (carries h).1 c hc
    · cases hx
  | right op =>
    simp only [act] at hx
    split at hx
    · rename_i hl
      obtain ⟨a, h1, rfl⟩ := Option.map_eq_some_iff.1 hx
      exact .right h h1 fun c hc => by rw [arrived_of_local h1 hl c hc]; exact (carries h).2 c hc
    · cases hx
  | toRight c n =>
    simp only [act] at hx
    split at hx
    · split at hx
      · rename_i hs
        obtain ⟨a, h1, rfl⟩ := Option.map_eq_some_iff.1 hx
        refine .right h h1 fun c' hc => ?_
        rw [arrived_of_arrive h1]
        split
        · rename_i hcc; subst hcc; exact hs
        · exact (carries h).2 c' hc
      · cases hx
    · cases hx
  | toLeft c n =>
    simp only [act] at hx
    split at hx
    · split at hx
      · rename_i hs
        obtain ⟨a, h1, rfl⟩ := Option.map_eq_some_iff.1 hx
        refine .left h h1 fun c' hc => ?_
        rw [arrived_of_arrive h1]
        split
        · rename_i hcc; subst hcc; exact hs
        · exact (carries h).1 c' hc
      · cases hx
    · cases hx

theorem reachable_acts {as : List Act} : ∀ {s s' : Sys CA CB}, Reachable ca cb linked s →
    acts ca cb linked s as = some s' → Reachable ca cb linked s' := by
  induction as with
  | nil => intro s s' h hx; cases hx; exact h
  | cons a as ih =>
    intro s s' h hx
    simp only [acts, Option.bind_eq_some_iff] at hx
    obtain ⟨s1, h1, h2⟩ := hx
    exact ih (reachable_act h h1) h2

end Bromine.Lossy
