import Verif.Spec.System
import Verif.Lemmas.EndpointIds
/-
Invariants of two joined endpoints.
-/
namespace Bromine.System
open Bromine.Endpoint Spec

variable {CA CB : Type} {ca : Config CA} {cb : Config CB} {linked : Nat → Bool}

/-- A step of the system is a step of one endpoint. -/
theorem step_cases {s s' : Sys CA CB} {op : Op} (h : step ca cb linked s op = some s') :
    (∃ o, Endpoint.step ca s.a o = some s'.a ∧ s'.b = s.b ∧
      ∀ c e, o = .arrive c e → linked c = true → ∃ x, (s.b.out c)[(s.a.arrived c).length]? = some x ∧ e = x.event) ∨
    (∃ o, Endpoint.step cb s.b o = some s'.b ∧ s'.a = s.a ∧
      ∀ c e, o = .arrive c e → linked c = true → ∃ x, (s.a.out c)[(s.b.arrived c).length]? = some x ∧ e = x.event) := by
  cases op with
  | left o =>
    simp only [step] at h
    split at h
    · rename_i hl
      obtain ⟨a, h1, rfl⟩ := Option.map_eq_some_iff.1 h
      refine .inl ⟨o, h1, rfl, ?_⟩
      rintro c e rfl hc
      simp [isLocal, hc] at hl
    · cases h
  | right o =>
    simp only [step] at h
    split at h
    · rename_i hl
      obtain ⟨a, h1, rfl⟩ := Option.map_eq_some_iff.1 h
      refine .inr ⟨o, h1, rfl, ?_⟩
      rintro c e rfl hc
      simp [isLocal, hc] at hl
    · cases h
  | toRight c =>
    simp only [step] at h
    split at h
    · split at h
      · rename_i x hx
        obtain ⟨a, h1, rfl⟩ := Option.map_eq_some_iff.1 h
        refine .inr ⟨_, h1, rfl, ?_⟩
        intro c' e he _
        injection he with h1 h2
        subst h1
        exact ⟨x, hx, h2.symm⟩
      · cases h
    · cases h
  | toLeft c =>
    simp only [step] at h
    split at h
    · split at h
      · rename_i x hx
        obtain ⟨a, h1, rfl⟩ := Option.map_eq_some_iff.1 h
        refine .inl ⟨_, h1, rfl, ?_⟩
        intro c' e he _
        injection he with h1 h2
        subst h1
        exact ⟨x, hx, h2.symm⟩
      · cases h
    · cases h

/-- Induction over the reachable states of the system. -/
theorem reachable_induction {P : Sys CA CB → Prop} (h0 : P {})
    (hstep : ∀ s op s', Reachable ca cb linked s → P s → step ca cb linked s op = some s' → P s')
    {s : Sys CA CB} (h : Reachable ca cb linked s) : P s := by
  obtain ⟨ops, h⟩ := h
  suffices ∀ ops s0, Reachable ca cb linked s0 → P s0 → run ca cb linked s0 ops = some s → P s from
    this ops {} ⟨[], rfl⟩ h0 h
  intro ops
  induction ops with
  | nil => intro s0 _ hp hr; cases hr; exact hp
  | cons op ops ih =>
    intro s0 hre hp hr
    simp only [run, Option.bind_eq_some_iff] at hr
    obtain ⟨s1, h1, h2⟩ := hr
    refine ih s1 ?_ (hstep s0 op s1 hre hp h1) h2
    obtain ⟨ops0, h0⟩ := hre
    refine ⟨ops0 ++ [op], ?_⟩
    have : ∀ (l : List Op) (x : Sys CA CB), run ca cb linked x l = some s0 → run ca cb linked x (l ++ [op]) = some s1 := by
      intro l
      induction l with
      | nil => intro x hx; cases hx; simp [run, h1]
      | cons o l ihl =>
        intro x hx
        simp only [run, Option.bind_eq_some_iff, List.cons_append] at hx ⊢
        obtain ⟨y, hy, hy'⟩ := hx
        exact ⟨y, hy, ihl y hy'⟩
    exact this ops0 {} h0

theorem reachable_left {s : Sys CA CB} (h : Reachable ca cb linked s) : Endpoint.Reachable ca s.a := by
  refine reachable_induction (P := fun s => Endpoint.Reachable ca s.a) ⟨[], rfl⟩ ?_ h
  intro s op s' _ ih hs
  rcases step_cases hs with ⟨o, h1, _⟩ | ⟨o, _, h2, _⟩
  · exact ih.step h1
  · rw [h2]; exact ih

theorem reachable_right {s : Sys CA CB} (h : Reachable ca cb linked s) : Endpoint.Reachable cb s.b := by
  refine reachable_induction (P := fun s => Endpoint.Reachable cb s.b) ⟨[], rfl⟩ ?_ h
  intro s op s' _ ih hs
  rcases step_cases hs with ⟨o, _, h2, _⟩ | ⟨o, h1, _⟩
  · rw [h2]; exact ih
  · exact ih.step h1

/-- The mirrored system. -/
def Sys.swap (s : Sys CA CB) : Sys CB CA := { a := s.b, b := s.a }

/-- The mirrored step. -/
def Op.swap : Op → Op
  | .left o => .right o
  | .right o => .left o
  | .toLeft c => .toRight c
  | .toRight c => .toLeft c

theorem step_swap (s : Sys CA CB) (op : Op) : step cb ca linked s.swap op.swap = (step ca cb linked s op).map Sys.swap := by
  cases op with
  | left o =>
    simp only [Op.swap, step, Sys.swap]
    split
    · rw [Option.map_map, ]; rfl
    · rfl
  | right o =>
    simp only [Op.swap, step, Sys.swap]
    split
    · rw [Option.map_map]; rfl
    · rfl
  | toLeft c =>
    simp only [Op.swap, step, Sys.swap]
    split
    · split
      · rw [Option.map_map]; rfl
      · rfl
    · rfl
  | toRight c =>
    simp only [Op.swap, step, Sys.swap]
    split
    · split
      · rw [Option.map_map]; rfl
      · rfl
    · rfl

theorem reachable_swap {s : Sys CA CB} (h : Reachable ca cb linked s) : Reachable cb ca linked s.swap := by
  obtain ⟨ops, h⟩ := h
  refine ⟨ops.map Op.swap, ?_⟩
  suffices ∀ (x : Sys CA CB), run ca cb linked x ops = some s → run cb ca linked x.swap (ops.map Op.swap) = some s.swap from
    this {} h
  clear h
  intro x
  induction ops generalizing x with
  | nil => intro h; cases h; rfl
  | cons o ops ih =>
    intro h
    simp only [run, Option.bind_eq_some_iff, List.map_cons] at h ⊢
    obtain ⟨y, h1, h2⟩ := h
    rw [step_swap, h1]
    exact ⟨y.swap, rfl, ih y h2⟩

/-- Linked connections are reliable FIFO channels. -/
theorem fifo_right {s : Sys CA CB} (h : Reachable ca cb linked s) :
    ∀ c, linked c = true → s.b.arrived c <+: (s.a.out c).map (·.event) := by
  refine reachable_induction (P := fun s => ∀ c, linked c = true → s.b.arrived c <+: (s.a.out c).map (·.event)) (by simp) ?_ h
  intro s op s' _ ih hs c hc
  rcases step_cases hs with ⟨o, h1, h2, _⟩ | ⟨o, h1, h2, h3⟩
  · rw [h2]
    obtain ⟨l, hl⟩ := (stepR_of_step h1).ext.out c
    rw [← hl, List.map_append]
    exact (ih c hc).trans (List.prefix_append _ _)
  · rw [h2]
    have hold := ih c hc
    have hsr := stepR_of_step h1
    generalize s'.b = b' at *
    cases hsr with
    | arrive c0 e =>
      simp only [upd_apply]
      split
      · rename_i hcc
        subst hcc
        obtain ⟨x, hx, rfl⟩ := h3 c e rfl hc
        obtain ⟨l, hl⟩ := hold
        have : ((s.a.out c).map (·.event))[(s.b.arrived c).length]? = some x.event := by simp [hx]
        rw [← hl, List.getElem?_append_right (Nat.le_refl _), Nat.sub_self] at this
        cases l with
        | nil => simp at this
        | cons y l =>
          simp at this
          subst this
          rw [← hl]
          exact ⟨l, by simp⟩
      · exact hold
    | _ => exact hold

theorem fifo_left {s : Sys CA CB} (h : Reachable ca cb linked s) :
    ∀ c, linked c = true → s.a.arrived c <+: (s.b.out c).map (·.event) := fifo_right (reachable_swap h)

theorem DistinctIds.left {s : Sys CA CB} (h : DistinctIds s) : s.a.created.Nodup := (List.nodup_append.1 h).1
theorem DistinctIds.right {s : Sys CA CB} (h : DistinctIds s) : s.b.created.Nodup := (List.nodup_append.1 h).2.1

theorem DistinctIds.swap {s : Sys CA CB} (h : DistinctIds s) : DistinctIds s.swap := by
  simp only [DistinctIds, Sys.swap, List.nodup_append] at h ⊢
  exact ⟨h.2.1, h.1, fun a ha b hb hab => h.2.2 b hb a ha hab.symm⟩

/-- Every event handled on a linked connection was emitted by the other side. -/
theorem task_event {s : Sys CA CB} (h : Reachable ca cb linked s) {t : Nat} {k : Endpoint.Task CB}
    (hk : s.b.tasks t = some k) (hl : linked k.conn = true) :
    k.event ∈ s.b.arrived k.conn ∧ ∃ x ∈ s.a.out k.conn, x.event = k.event := by
  have hre := reachable_right h
  have h1 := taskEntries_eq hre t
  rw [hk] at h1
  have hm : ({ conn := k.conn, event := k.event, dest := .handler t } : Entry) ∈ taskEntries s.b t := by
    rw [h1]; simp [taskEntry]
  have hin : k.event ∈ s.b.arrived k.conn := by
    rw [arrInv hre]
    simp only [List.mem_append, handledOn, List.mem_map, List.mem_filter, decide_eq_true_eq]
    exact .inl (.inl ⟨_, ⟨(List.mem_filter.1 hm).1, rfl⟩, rfl⟩)
  refine ⟨hin, ?_⟩
  have := (fifo_right h k.conn hl).subset hin
  simpa using this

/-- An event with a reference that arrived at the first side on a linked connection answers an event that the first
side had emitted on that connection. -/
theorem reply_source {s : Sys CA CB} (h : Reachable ca cb linked s) {c : Nat} (hl : linked c = true) {e : Event}
    {id : UInt64} (he : e ∈ s.a.arrived c) (hid : e.referenceId = some id) :
    ∃ y ∈ s.b.out c, y.event = e ∧ ∃ t k, s.b.tasks t = some k ∧ k.conn = c ∧ k.event.id = id ∧
      (y.origin = .task t ∨ y.origin = .final t) ∧ ∃ x ∈ s.a.out c, x.event = k.event := by
  have := (fifo_left h c hl).subset he
  simp only [List.mem_map] at this
  obtain ⟨y, hy, rfl⟩ := this
  refine ⟨y, hy, rfl, ?_⟩
  have ho := (outInv (reachable_right h)).out c y hy
  rcases hyo : y.origin with _ | t | t
  · rw [hyo] at ho
    rw [ho.1] at hid
    cases hid
  · rw [hyo] at ho
    obtain ⟨k, h1, h2, h3, h4, h5⟩ := ho
    refine ⟨t, k, h1, h2, ?_, .inl rfl, ?_⟩
    · rw [h4] at hid; exact Option.some.inj hid
    · subst h2; exact (task_event h h1 hl).2
  · rw [hyo] at ho
    obtain ⟨k, res, i, h1, h2, h3, h4⟩ := ho
    refine ⟨t, k, h1, h2, ?_, .inr rfl, ?_⟩
    · rw [h3, finalEvent_ref] at hid; exact Option.some.inj hid
    · subst h2; exact (task_event h h1 hl).2

/-- With different ids, and if all events that are handled came from linked connections, ids are not reused in the sense
of `FreshIds`. -/
theorem freshIds' {s : Sys CA CB} (h : Reachable ca cb linked s) (hd : DistinctIds s)
    (hl : ∀ t k, s.a.tasks t = some k → linked k.conn = true) : FreshIds ca s.a := by
  refine ⟨fun r r' q q' hq hq' _ hid => (unique (reachable_left h) hd.left).reqs r r' q q' hq hq' hid, ?_⟩
  intro t k r q hk hq _ hid
  have h1 := (created_mem (reachable_left h)).1 r q hq
  obtain ⟨_, x, hx, hxe⟩ := task_event (reachable_swap h) (t := t) (k := k) hk (hl t k hk)
  have h2 := (created_mem (reachable_right h)).2 k.conn x hx
  rw [hxe, hid] at h2
  exact (List.nodup_append.1 hd).2.2 _ h1 _ h2 rfl

/-- With different ids, and if all connections are linked, ids are not reused in the sense of `FreshIds`. -/
theorem freshIds {s : Sys CA CB} (h : Reachable ca cb linked s) (hd : DistinctIds s)
    (hl : ∀ c, linked c = true) : FreshIds ca s.a := freshIds' h hd fun _ _ _ => hl _

end Bromine.System
