import Verif.Lemmas.LayerLink
import Verif.Lemmas.Fair
import Verif.Props.Stack
/-
A fair execution down to the bytes is, for the endpoints, a fair execution of the system in which events arrive as a whole: helpers for C71.
-/
namespace Bromine.Stack
open Bromine.Endpoint Spec

variable {CA CB : Type} {ca : Config CA} {cb : Config CB} {linked : Nat → Bool} {LR LL : Nat → Link}

/-- Steps of the stack that are steps of the system. -/
def sysOp : Op LR LL → Option System.Op
  | .left o => some (.left o)
  | .right o => some (.right o)
  | .readR c => some (.toRight c)
  | .readL c => some (.toLeft c)
  | .linkR _ _ => none
  | .linkL _ _ => none

/-- The steps of the system in an execution of the stack. -/
def sysOps (op : Nat → Option (Op LR LL)) (n : Nat) : Option System.Op := (op n).bind sysOp

/-! ### Mirror -/

/-- The other way round. -/
def St.swap (s : St CA CB LR LL) : St CB CA LL LR := { sys := s.sys.swap, right := s.left, left := s.right }

/-- The other way round. -/
def Op.swap : Op LR LL → Op LL LR
  | .left o => .right o
  | .right o => .left o
  | .linkR c o => .linkL c o
  | .linkL c o => .linkR c o
  | .readR c => .readL c
  | .readL c => .readR c

theorem Op.swap_swap (o : Op LR LL) : o.swap.swap = o := by cases o <;> rfl

theorem step_swap (s : St CA CB LR LL) (o : Op LR LL) : step cb ca linked LL LR s.swap o.swap = (step ca cb linked LR LL s o).map St.swap := by
  cases o with
  | left o =>
    simp only [Op.swap, step, St.swap, System.Sys.swap]
    split
    · cases Endpoint.step ca s.sys.a o with
      | none => rfl
      | some a =>
        simp only [Option.bind_some]
        split
        · split
          · rename_i c e _ _
            cases (LR c).emit (s.right c) e <;> rfl
          · rfl
        · rfl
    · rfl
  | right o =>
    simp only [Op.swap, step, St.swap, System.Sys.swap]
    split
    · cases Endpoint.step cb s.sys.b o with
      | none => rfl
      | some a =>
        simp only [Option.bind_some]
        split
        · split
          · rename_i c e _ _
            cases (LL c).emit (s.left c) e <;> rfl
          · rfl
        · rfl
    · rfl
  | linkR c o => simp only [Op.swap, step, St.swap]; cases (LR c).step (s.right c) o <;> rfl
  | linkL c o => simp only [Op.swap, step, St.swap]; cases (LL c).step (s.left c) o <;> rfl
  | readR c =>
    simp only [Op.swap, step]
    by_cases h : linked c = true ∧ s.sys.b.loop c = Loop.idle ∧ s.sys.b.inbox c = []
    · have h' : linked c = true ∧ s.swap.sys.a.loop c = Loop.idle ∧ s.swap.sys.a.inbox c = [] := h
      rw [if_pos h, if_pos h']
      simp only [St.swap, System.Sys.swap]
      cases (LR c).read (s.right c) with
      | none => rfl
      | some p => simp only; cases Endpoint.step cb s.sys.b (.arrive c p.1) <;> rfl
    · have h' : ¬ (linked c = true ∧ s.swap.sys.a.loop c = Loop.idle ∧ s.swap.sys.a.inbox c = []) := h
      rw [if_neg h, if_neg h']; rfl
  | readL c =>
    simp only [Op.swap, step]
    by_cases h : linked c = true ∧ s.sys.a.loop c = Loop.idle ∧ s.sys.a.inbox c = []
    · have h' : linked c = true ∧ s.swap.sys.b.loop c = Loop.idle ∧ s.swap.sys.b.inbox c = [] := h
      rw [if_pos h, if_pos h']
      simp only [St.swap, System.Sys.swap]
      cases (LL c).read (s.left c) with
      | none => rfl
      | some p => simp only; cases Endpoint.step ca s.sys.a (.arrive c p.1) <;> rfl
    · have h' : ¬ (linked c = true ∧ s.swap.sys.b.loop c = Loop.idle ∧ s.swap.sys.b.inbox c = []) := h
      rw [if_neg h, if_neg h']; rfl

/-- As `Spec.FairStack`, for any links. -/
structure Fair (ca : Config CA) (cb : Config CB) (linked : Nat → Bool) (WR TR : ∀ c, (LR c).Op → Prop) (WL TL : ∀ c, (LL c).Op → Prop)
    (σ : Nat → St CA CB LR LL) (op : Nat → Option (Op LR LL)) : Prop where
  run : Execution (step ca cb linked LR LL) (init LR LL) σ op
  left : FairTasks (step ca cb linked LR LL) σ op .left
  right : FairTasks (step ca cb linked LR LL) σ op .right
  writesR : ∀ c, WeaklyFair (step ca cb linked LR LL) σ op fun o => ∃ x, o = .linkR c x ∧ WR c x
  writesL : ∀ c, WeaklyFair (step ca cb linked LR LL) σ op fun o => ∃ x, o = .linkL c x ∧ WL c x
  carriesR : ∀ c, WeaklyFair (step ca cb linked LR LL) σ op fun o => ∃ x, o = .linkR c x ∧ TR c x
  carriesL : ∀ c, WeaklyFair (step ca cb linked LR LL) σ op fun o => ∃ x, o = .linkL c x ∧ TL c x
  readsR : ∀ c, WeaklyFair (step ca cb linked LR LL) σ op (· = .readR c)
  readsL : ∀ c, WeaklyFair (step ca cb linked LR LL) σ op (· = .readL c)

variable {WR TR : ∀ c, (LR c).Op → Prop} {WL TL : ∀ c, (LL c).Op → Prop} {σ : Nat → St CA CB LR LL} {op : Nat → Option (Op LR LL)}

theorem poss_swap (s : St CA CB LR LL) (C : Op LL LR → Prop) (h : Possible (step cb ca linked LL LR) s.swap C) :
    Possible (step ca cb linked LR LL) s (fun o => C o.swap) := by
  obtain ⟨o, s', h1, h2⟩ := h
  refine ⟨o.swap, s'.swap, by show C o.swap.swap; rw [Op.swap_swap]; exact h1, ?_⟩
  have := step_swap (ca := cb) (cb := ca) (linked := linked) s.swap o
  rw [h2] at this
  exact this

theorem weak_swap {C : Op LR LL → Prop} {D : Op LL LR → Prop} (hCD : ∀ o, C o ↔ D o.swap) (h : WeaklyFair (step ca cb linked LR LL) σ op C) :
    WeaklyFair (step cb ca linked LL LR) (fun n => (σ n).swap) (fun n => (op n).map Op.swap) D := by
  intro n hn
  have hC : C = fun o => D o.swap := funext fun o => propext (hCD o)
  subst hC
  obtain ⟨m, hm, o, ho, hc⟩ := h n (fun m hm => poss_swap (σ m) D (hn m hm))
  exact ⟨m, hm, o.swap, by simp [ho], hc⟩

theorem strong_swap {C : Op LR LL → Prop} {D : Op LL LR → Prop} (hCD : ∀ o, C o ↔ D o.swap) (h : StronglyFair (step ca cb linked LR LL) σ op C) :
    StronglyFair (step cb ca linked LL LR) (fun n => (σ n).swap) (fun n => (op n).map Op.swap) D := by
  intro n hn
  have hC : C = fun o => D o.swap := funext fun o => propext (hCD o)
  subst hC
  obtain ⟨m, hm, o, ho, hc⟩ := h n (fun m hm => by
    obtain ⟨m', hm', hp⟩ := hn m hm
    exact ⟨m', hm', poss_swap (σ m') D hp⟩)
  exact ⟨m, hm, o.swap, by simp [ho], hc⟩

theorem tasks_swap {l : Endpoint.Op → Op LR LL} {l' : Endpoint.Op → Op LL LR} (hl : ∀ o p, o = l p ↔ o.swap = l' p)
    (R : FairTasks (step ca cb linked LR LL) σ op l) :
    FairTasks (step cb ca linked LL LR) (fun n => (σ n).swap) (fun n => (op n).map Op.swap) l' := by
  refine ⟨fun c => weak_swap ?_ (R.takes c), fun c => strong_swap ?_ (R.delivers c), fun r => strong_swap ?_ (R.sends r), fun r => weak_swap ?_ (R.reads r),
    fun r => weak_swap ?_ (R.finishes r), fun t => weak_swap ?_ (R.handlers t), fun t => strong_swap ?_ (R.responds t)⟩
  all_goals (intro o; simp only [hl])

/-- The mirrored execution is fair. -/
theorem Fair.swap (F : Fair ca cb linked WR TR WL TL σ op) : Fair cb ca linked WL TL WR TR (fun n => (σ n).swap) (fun n => (op n).map Op.swap) := by
  refine ⟨⟨by rw [F.run.start]; rfl, fun n => ?_⟩, tasks_swap (by intro o p; cases o <;> simp [Op.swap]) F.right,
    tasks_swap (by intro o p; cases o <;> simp [Op.swap]) F.left, fun c => weak_swap ?_ (F.writesL c), fun c => weak_swap ?_ (F.writesR c),
    fun c => weak_swap ?_ (F.carriesL c), fun c => weak_swap ?_ (F.carriesR c), fun c => weak_swap ?_ (F.readsL c), fun c => weak_swap ?_ (F.readsR c)⟩
  · have := F.run.next n
    cases h : op n with
    | none => rw [h] at this; simp only [Option.map_none]; rw [this]
    | some o => rw [h] at this; simp only [Option.map_some]; rw [step_swap, this]; rfl
  all_goals
    intro o
    cases o
    all_goals simp [Op.swap]

/-! ### Projections -/

theorem exec_step (E : Execution (step ca cb linked LR LL) (init LR LL) σ op) (n : Nat) :
    σ (n + 1) = σ n ∧ op n = none ∨ ∃ o, op n = some o ∧ step ca cb linked LR LL (σ n) o = some (σ (n + 1)) := by
  have := E.next n
  cases h : op n with
  | none => rw [h] at this; exact .inl ⟨this, rfl⟩
  | some o => rw [h] at this; exact .inr ⟨o, rfl, this⟩

theorem exec_inv (E : Execution (step ca cb linked LR LL) (init LR LL) σ op) (n : Nat) : Inv linked (σ n) := by
  induction n with
  | zero => rw [E.start]; exact inv_init
  | succ n ih =>
    rcases exec_step E n with ⟨h, -⟩ | ⟨o, -, h⟩
    · rw [h]; exact ih
    · exact inv_step ih h

/-- A step of the stack is a step of the system or does not concern it. -/
theorem sys_step {carR carL : Nat → Event → Prop} (hR : ∀ c, linked c = true → (LR c).Faithful (carR c))
    (hL : ∀ c, linked c = true → (LL c).Faithful (carL c)) {s s' : St CA CB LR LL} {o : Op LR LL} (hinv : Inv linked s) (hc : Carriable linked carR carL s)
    (hs : step ca cb linked LR LL s o = some s') :
    match sysOp o with
    | none => s'.sys = s.sys
    | some p => System.step ca cb linked s.sys p = some s'.sys := by
  cases o with
  | left op =>
    simp only [step, sysOp, System.step] at hs ⊢
    split at hs
    · rename_i hloc
      obtain ⟨a, ha, hs⟩ := Option.bind_eq_some_iff.1 hs
      simp only [hloc, if_true, ha, Option.map_some, Option.some.injEq]
      split at hs
      · split at hs
        · obtain ⟨l, hl, rfl⟩ := Option.map_eq_some_iff.1 hs; rfl
        · cases hs; rfl
      · cases hs; rfl
    · cases hs
  | right op =>
    simp only [step, sysOp, System.step] at hs ⊢
    split at hs
    · rename_i hloc
      obtain ⟨a, ha, hs⟩ := Option.bind_eq_some_iff.1 hs
      simp only [hloc, if_true, ha, Option.map_some, Option.some.injEq]
      split at hs
      · split at hs
        · obtain ⟨l, hl, rfl⟩ := Option.map_eq_some_iff.1 hs; rfl
        · cases hs; rfl
      · cases hs; rfl
    · cases hs
  | linkR d o =>
    simp only [step] at hs
    obtain ⟨l, hl, rfl⟩ := Option.map_eq_some_iff.1 hs
    rfl
  | linkL d o =>
    simp only [step] at hs
    obtain ⟨l, hl, rfl⟩ := Option.map_eq_some_iff.1 hs
    rfl
  | readR d =>
    simp only [step, sysOp] at hs ⊢
    split at hs
    · rename_i hd
      split at hs
      · rename_i e l hr
        obtain ⟨b, hb, rfl⟩ := Option.map_eq_some_iff.1 hs
        obtain ⟨x, hx, hxe⟩ := next_of_read (hR d hd.1) (hinv.right d hd.1) hr (hc d hd.1).1
        simp only [System.step, hd.1, if_true, hx, hxe, hb, Option.map_some]
      · cases hs
    · cases hs
  | readL d =>
    simp only [step, sysOp] at hs ⊢
    split at hs
    · rename_i hd
      split at hs
      · rename_i e l hr
        obtain ⟨b, hb, rfl⟩ := Option.map_eq_some_iff.1 hs
        obtain ⟨x, hx, hxe⟩ := next_of_read (hL d hd.1) (hinv.left d hd.1) hr (hc d hd.1).2
        simp only [System.step, hd.1, if_true, hx, hxe, hb, Option.map_some]
      · cases hs
    · cases hs

theorem exec_sys {carR carL : Nat → Event → Prop} (hR : ∀ c, linked c = true → (LR c).Faithful (carR c))
    (hL : ∀ c, linked c = true → (LL c).Faithful (carL c)) (E : Execution (step ca cb linked LR LL) (init LR LL) σ op)
    (hc : ∀ n, Carriable linked carR carL (σ n)) : Execution (System.step ca cb linked) {} (fun n => (σ n).sys) (sysOps op) := by
  refine ⟨by rw [E.start]; rfl, fun n => ?_⟩
  rcases exec_step E n with ⟨h, h0⟩ | ⟨o, h0, h⟩
  · simp only [sysOps, h0, Option.bind_none, h]
  · have := sys_step hR hL (exec_inv E n) (hc n) h
    simp only [sysOps, h0, Option.bind_some]
    cases hp : sysOp o with
    | none => rw [hp] at this; exact this
    | some p => rw [hp] at this; exact this

/-- The steps of one link. -/
def linkOp (op : Nat → Option (Op LR LL)) (c n : Nat) : Option (LR c).Op :=
  match op n with
  | some (.linkR d o) => if h : d = c then some (h ▸ o) else none
  | _ => none

theorem linkOp_eq {c n : Nat} {o : (LR c).Op} : linkOp op c n = some o ↔ op n = some (.linkR c o) := by
  simp only [linkOp]
  split
  · rename_i d o' h
    rw [h]
    by_cases hd : d = c
    · subst hd; simp
    · simp [hd]
  · rename_i hno
    constructor
    · intro h; cases h
    · intro h; exact absurd h (hno c o)

theorem link_runs (E : Execution (step ca cb linked LR LL) (init LR LL) σ op) {c : Nat} (hc : linked c = true) :
    Link.Runs (LR c) (fun n => (σ n).right c) (fun n => ((σ n).sys.a.out c).map (·.event)) (fun n => (σ n).sys.b.arrived c) (linkOp op c) := by
  refine ⟨fun n => (exec_inv E n).right c hc, fun n o ho => ?_, fun n ho => ?_⟩
  · have h := E.next n
    rw [linkOp_eq.1 ho] at h
    simp only [step] at h
    obtain ⟨l, hl, h⟩ := Option.map_eq_some_iff.1 h
    rw [← h]
    simpa using hl
  · rcases exec_step E n with ⟨h, -⟩ | ⟨o, h0, h⟩
    · exact .inl (by simp [h])
    · generalize σ (n + 1) = s' at *
      generalize σ n = s at *
      cases o with
      | left o =>
        simp only [step] at h
        split at h
        · obtain ⟨a, ha, hs⟩ := Option.bind_eq_some_iff.1 h
          have hout := out_step ha c
          cases hem : emits ca s.sys.a o with
          | none =>
            rw [hem] at hs hout
            cases hs
            exact .inl ⟨rfl, by simpa [adds] using hout⟩
          | some p =>
            obtain ⟨d, e⟩ := p
            rw [hem] at hs hout
            simp only at hs
            split at hs
            · obtain ⟨l, hl, rfl⟩ := Option.map_eq_some_iff.1 hs
              by_cases hd : c = d
              · subst hd
                exact .inr (.inl ⟨e, by simpa using hl, by simpa [adds] using hout⟩)
              · exact .inl ⟨by simp [updD_ne _ _ hd], by simpa [adds, Ne.symm hd] using hout⟩
            · rename_i hld
              cases hs
              have hd : d ≠ c := by rintro rfl; exact hld hc
              exact .inl ⟨rfl, by simpa [adds, hd] using hout⟩
        · cases h
      | right o =>
        simp only [step] at h
        split at h
        · obtain ⟨a, ha, hs⟩ := Option.bind_eq_some_iff.1 h
          split at hs
          · split at hs
            · obtain ⟨l, hl, rfl⟩ := Option.map_eq_some_iff.1 hs; exact .inl ⟨rfl, rfl⟩
            · cases hs; exact .inl ⟨rfl, rfl⟩
          · cases hs; exact .inl ⟨rfl, rfl⟩
        · cases h
      | linkR d o =>
        simp only [step] at h
        obtain ⟨l, hl, rfl⟩ := Option.map_eq_some_iff.1 h
        have hd : c ≠ d := by
          rintro rfl
          rw [linkOp_eq.2 h0] at ho; cases ho
        exact .inl ⟨by simp [updD_ne _ _ hd], rfl⟩
      | linkL d o =>
        simp only [step] at h
        obtain ⟨l, hl, rfl⟩ := Option.map_eq_some_iff.1 h
        exact .inl ⟨rfl, rfl⟩
      | readR d =>
        simp only [step] at h
        split at h
        · split at h
          · rename_i e l hr
            obtain ⟨b, hb, rfl⟩ := Option.map_eq_some_iff.1 h
            by_cases hd : c = d
            · subst hd
              exact .inr (.inr ⟨e, by simpa using hr, rfl⟩)
            · exact .inl ⟨by simp [updD_ne _ _ hd], rfl⟩
          · cases h
        · cases h
      | readL d =>
        simp only [step] at h
        split at h
        · split at h
          · rename_i e l hr
            obtain ⟨b, hb, rfl⟩ := Option.map_eq_some_iff.1 h
            exact .inl ⟨rfl, by rw [(arrive_eq hb).1]⟩
          · cases h
        · cases h

section
variable {carR carL : Nat → Event → Prop}

theorem car_events (hc : ∀ n, Carriable linked carR carL (σ n)) {c : Nat} (hl : linked c = true) (n : Nat) :
    ∀ e ∈ ((σ n).sys.a.out c).map (·.event), carR c e := by
  intro e he
  obtain ⟨x, hx, rfl⟩ := List.mem_map.1 he
  exact (hc n c hl).1 x hx

theorem fair_writes (F : Fair ca cb linked WR TR WL TL σ op) (c n : Nat) (h : ∀ m, n ≤ m → ∃ o s', WR c o ∧ (LR c).step ((σ m).right c) o = some s') :
    ∃ m, n ≤ m ∧ ∃ o, linkOp op c m = some o ∧ WR c o := by
  obtain ⟨m, hm, o, ho, x, rfl, hx⟩ := F.writesR c n (fun m hm => by
    obtain ⟨o, s', h1, h2⟩ := h m hm
    exact ⟨.linkR c o, _, ⟨o, rfl, h1⟩, by simp only [step, h2, Option.map_some]; rfl⟩)
  exact ⟨m, hm, x, linkOp_eq.2 ho, hx⟩

theorem fair_carries (F : Fair ca cb linked WR TR WL TL σ op) (c n : Nat) (h : ∀ m, n ≤ m → ∃ o s', TR c o ∧ (LR c).step ((σ m).right c) o = some s') :
    ∃ m, n ≤ m ∧ ∃ o, linkOp op c m = some o ∧ TR c o := by
  obtain ⟨m, hm, o, ho, x, rfl, hx⟩ := F.carriesR c n (fun m hm => by
    obtain ⟨o, s', h1, h2⟩ := h m hm
    exact ⟨.linkR c o, _, ⟨o, rfl, h1⟩, by simp only [step, h2, Option.map_some]; rfl⟩)
  exact ⟨m, hm, x, linkOp_eq.2 ho, hx⟩

/-- The lock of a connection gets free again and again. -/
theorem fair_frees (F : Fair ca cb linked WR TR WL TL σ op) (M : ∀ c, Link.Moves (LR c) (carR c) (WR c) (TR c)) (hc : ∀ n, Carriable linked carR carL (σ n))
    {c : Nat} (hl : linked c = true) (n : Nat) : ∃ m, n ≤ m ∧ ¬ (M c).held ((σ m).right c) :=
  (link_runs F.run hl).frees (M c) (car_events hc hl) (fair_writes F c) n

/-- A step of the first endpoint that the system allows, and that writes nothing, is possible. -/
theorem can_quiet {s : St CA CB LR LL} {p : Endpoint.Op} {x : System.Sys CA CB} (h : System.step ca cb linked s.sys (.left p) = some x)
    (hq : emits ca s.sys.a p = none) : ∃ s', step ca cb linked LR LL s (.left p) = some s' := by
  simp only [System.step] at h
  split at h
  · rename_i hl
    obtain ⟨a, ha, -⟩ := Option.map_eq_some_iff.1 h
    simp only [step, hl, if_true, ha, Option.bind_some, hq]
    exact ⟨_, rfl⟩
  · cases h

/-- A step of the first endpoint that writes is possible, if the connection is free. -/
theorem can_loud {s : St CA CB LR LL} {p : Endpoint.Op} {x : System.Sys CA CB} (h : System.step ca cb linked s.sys (.left p) = some x) {c : Nat} {e : Event}
    (hq : emits ca s.sys.a p = some (c, e)) (hf : linked c = true → ∃ l, (LR c).emit (s.right c) e = some l) :
    ∃ s', step ca cb linked LR LL s (.left p) = some s' := by
  simp only [System.step] at h
  split at h
  · rename_i hl
    obtain ⟨a, ha, -⟩ := Option.map_eq_some_iff.1 h
    simp only [step, hl, if_true, ha, Option.bind_some, hq]
    split
    · rename_i hlc
      obtain ⟨l, hl'⟩ := hf hlc
      rw [hl']; exact ⟨_, rfl⟩
    · exact ⟨_, rfl⟩
  · cases h

theorem weak_quiet {C : Op LR LL → Prop} {D : System.Op → Prop} (hCD : ∀ o, D o → ∃ p, o = .left p ∧ C (.left p) ∧ ∀ s : State CA, emits ca s p = none)
    (hDC : ∀ o, C o → ∃ p, sysOp o = some p ∧ D p)
    (h : WeaklyFair (step ca cb linked LR LL) σ op C) : WeaklyFair (System.step ca cb linked) (fun n => (σ n).sys) (sysOps op) D := by
  intro n hn
  obtain ⟨m, hm, o, ho, hC⟩ := h n (fun m hm => by
    obtain ⟨o, s', h1, h2⟩ := hn m hm
    obtain ⟨p, rfl, h3, h4⟩ := hCD o h1
    obtain ⟨s'', h5⟩ := can_quiet h2 (h4 _)
    exact ⟨_, s'', h3, h5⟩)
  obtain ⟨p, hp, hd⟩ := hDC o hC
  exact ⟨m, hm, p, by simp [sysOps, ho, hp], hd⟩

theorem strong_quiet {C : Op LR LL → Prop} {D : System.Op → Prop} (hCD : ∀ o, D o → ∃ p, o = .left p ∧ C (.left p) ∧ ∀ s : State CA, emits ca s p = none)
    (hDC : ∀ o, C o → ∃ p, sysOp o = some p ∧ D p)
    (h : StronglyFair (step ca cb linked LR LL) σ op C) : StronglyFair (System.step ca cb linked) (fun n => (σ n).sys) (sysOps op) D := by
  intro n hn
  obtain ⟨m, hm, o, ho, hC⟩ := h n (fun m hm => by
    obtain ⟨m', hm', o, s', h1, h2⟩ := hn m hm
    obtain ⟨p, rfl, h3, h4⟩ := hCD o h1
    obtain ⟨s'', h5⟩ := can_quiet h2 (h4 _)
    exact ⟨m', hm', _, s'', h3, h5⟩)
  obtain ⟨p, hp, hd⟩ := hDC o hC
  exact ⟨m, hm, p, by simp [sysOps, ho, hp], hd⟩

/-- The first endpoint is scheduled fairly as an endpoint of the system. -/
theorem fair_left (F : Fair ca cb linked WR TR WL TL σ op) (M : ∀ c, Link.Moves (LR c) (carR c) (WR c) (TR c)) (hc : ∀ n, Carriable linked carR carL (σ n))
    (E : Execution (System.step ca cb linked) {} (fun n => (σ n).sys) (sysOps op)) :
    FairSide (System.step ca cb linked) (fun n => (σ n).sys) (sysOps op) .left := by
  have EA := System.exec_left E
  have free : ∀ c e n, ∃ m, n ≤ m ∧ (linked c = true → ∃ l, (LR c).emit ((σ m).right c) e = some l) := by
    intro c e n
    cases hl : linked c with
    | false => exact ⟨n, Nat.le_refl _, fun h => by cases h⟩
    | true =>
      obtain ⟨m, hm, hf⟩ := fair_frees F M hc hl n
      exact ⟨m, hm, fun _ => (M c).can_emit e ((exec_inv F.run m).right c hl) (car_events hc hl m) hf⟩
  refine ⟨fun c => weak_quiet ?_ ?_ (F.left.takes c), fun c => strong_quiet ?_ ?_ (F.left.delivers c), fun r => ?_,
    fun r => weak_quiet ?_ ?_ (F.left.reads r), fun r => weak_quiet ?_ ?_ (F.left.finishes r), fun t => weak_quiet ?_ ?_ (F.left.handlers t), fun t => ?_⟩
  · rintro o ⟨t, rfl⟩; exact ⟨_, rfl, ⟨t, rfl⟩, fun _ => rfl⟩
  · rintro o ⟨t, rfl⟩; exact ⟨_, rfl, t, rfl⟩
  · rintro o ⟨t, rfl⟩; exact ⟨_, rfl, ⟨t, rfl⟩, fun _ => rfl⟩
  · rintro o ⟨t, rfl⟩; exact ⟨_, rfl, t, rfl⟩
  · intro n hn
    have reg : ∀ m, n ≤ m → ∃ q, (σ m).sys.a.reqs r = some q ∧ q.phase = .registered := by
      intro m hm
      obtain ⟨o, s', h1, h2⟩ := hn m hm
      have : ∃ p a', (p = .sent r ∨ p = .sendFail r) ∧ Endpoint.step ca (σ m).sys.a p = some a' := by
        rcases h1 with rfl | rfl
        all_goals
          simp only [System.step, System.isLocal, if_true] at h2
          obtain ⟨a, ha, -⟩ := Option.map_eq_some_iff.1 h2
        · exact ⟨_, a, .inl rfl, ha⟩
        · exact ⟨_, a, .inr rfl, ha⟩
      obtain ⟨p, a', hp, hs⟩ := this
      have hs := stepR_of_step hs
      rcases hp with rfl | rfl
      · cases hs; rename_i q hq hp; exact ⟨q, hp, hq⟩
      · cases hs; rename_i q hq hp; exact ⟨q, hp, hq⟩
    obtain ⟨q, hq, -⟩ := reg n (Nat.le_refl _)
    obtain ⟨m, hm, o, ho, rfl⟩ := F.left.sends r n (fun m hm => by
      obtain ⟨m', hm', hf⟩ := free q.conn q.event m
      obtain ⟨q', hq', hp⟩ := reg m' (by omega)
      obtain ⟨q'', hq'', hx⟩ := (exec_ext EA (show n ≤ m' by omega)).reqs r q hq
      try dsimp only at hq''
      rw [hq'] at hq''; cases hq''
      have hst : ∃ x, System.step ca cb linked (σ m').sys (.left (.sent r)) = some x := by
        simp only [System.step, System.isLocal, if_true, Endpoint.step, hq', hp]; exact ⟨_, rfl⟩
      obtain ⟨x, hst⟩ := hst
      obtain ⟨s', hs'⟩ := can_loud hst (c := q'.conn) (e := q'.event) (by simp [emits, hq']) (by rw [hx.1, hx.2.1]; exact hf)
      exact ⟨m', hm', _, s', rfl, hs'⟩)
    exact ⟨m, hm, _, by simp [sysOps, ho]; rfl, .inl rfl⟩
  · rintro o rfl; exact ⟨_, rfl, rfl, fun _ => rfl⟩
  · rintro o rfl; exact ⟨_, rfl, rfl⟩
  · rintro o rfl; exact ⟨_, rfl, rfl, fun _ => rfl⟩
  · rintro o rfl; exact ⟨_, rfl, rfl⟩
  · rintro o (⟨res, rfl⟩ | rfl)
    · exact ⟨_, rfl, .inl ⟨res, rfl⟩, fun _ => rfl⟩
    · exact ⟨_, rfl, .inr rfl, fun _ => rfl⟩
  · rintro o (⟨res, rfl⟩ | rfl)
    · exact ⟨_, rfl, .inl ⟨res, rfl⟩⟩
    · exact ⟨_, rfl, .inr rfl⟩
  · intro n hn
    have resp : ∀ m, n ≤ m → ∃ k res, (σ m).sys.a.tasks t = some k ∧ k.phase = .responding res := by
      intro m hm
      obtain ⟨o, s', h1, h2⟩ := hn m hm
      have : ∃ p a', ((∃ id, p = .respond t id) ∨ p = .respondFail t) ∧ Endpoint.step ca (σ m).sys.a p = some a' := by
        rcases h1 with ⟨id, rfl⟩ | rfl
        all_goals
          simp only [System.step, System.isLocal, if_true] at h2
          obtain ⟨a, ha, -⟩ := Option.map_eq_some_iff.1 h2
        · exact ⟨_, a, .inl ⟨id, rfl⟩, ha⟩
        · exact ⟨_, a, .inr rfl, ha⟩
      obtain ⟨p, a', hp, hs⟩ := this
      have hs := stepR_of_step hs
      rcases hp with ⟨id, rfl⟩ | rfl
      · cases hs; rename_i k res hp hk; exact ⟨k, res, hk, hp⟩
      · cases hs; rename_i k res hp hk; exact ⟨k, res, hk, hp⟩
    obtain ⟨k, res, hk, hp⟩ := resp n (Nat.le_refl _)
    obtain ⟨m, hm, o, ho, id, rfl⟩ := F.left.responds t n (fun m hm => by
      obtain ⟨m', hm', k', res', hk', hp', hf⟩ : ∃ m', m ≤ m' ∧ ∃ k' res', (σ m').sys.a.tasks t = some k' ∧ k'.phase = .responding res' ∧
          (linked k'.conn = true → ∃ l, (LR k'.conn).emit ((σ m').right k'.conn) (finalEvent ca k' res' 0) = some l) := by
        cases hl : linked k.conn with
        | false =>
          obtain ⟨k', res', hk', hp'⟩ := resp m hm
          obtain ⟨k'', hk'', hx⟩ := (exec_ext EA hm).tasks t k hk
          try dsimp only at hk''
          rw [hk'] at hk''; cases hk''
          exact ⟨m, Nat.le_refl _, k', res', hk', hp', fun h => by rw [hx.2.1, hl] at h; cases h⟩
        | true =>
          obtain ⟨m', hm', hf⟩ := fair_frees F M hc hl m
          obtain ⟨k', res', hk', hp'⟩ := resp m' (by omega)
          obtain ⟨k'', hk'', hx⟩ := (exec_ext EA (show n ≤ m' by omega)).tasks t k hk
          try dsimp only at hk''
          rw [hk'] at hk''; cases hk''
          refine ⟨m', hm', k', res', hk', hp', fun _ => ?_⟩
          rw [hx.2.1]
          exact (M k.conn).can_emit _ ((exec_inv F.run m').right k.conn hl) (car_events hc hl m') hf
      have hst : ∃ x, System.step ca cb linked (σ m').sys (.left (.respond t 0)) = some x := by
        simp only [System.step, System.isLocal, if_true, Endpoint.step, hk', hp']; exact ⟨_, rfl⟩
      obtain ⟨x, hst⟩ := hst
      obtain ⟨s', hs'⟩ := can_loud hst (c := k'.conn) (e := finalEvent ca k' res' 0) (by simp [emits, hk', hp']) hf
      exact ⟨m', hm', _, s', ⟨0, rfl⟩, hs'⟩)
    exact ⟨m, hm, _, by simp [sysOps, ho]; rfl, .inl ⟨id, rfl⟩⟩

/-- Only a read makes something arrive on a linked connection. -/
theorem arrived_other {s s' : St CA CB LR LL} {op : Op LR LL} (hs : step ca cb linked LR LL s op = some s') {c : Nat} (hl : linked c = true)
    (hno : op ≠ .readR c) : s'.sys.b.arrived c = s.sys.b.arrived c := by
  cases op with
  | readR d =>
    simp only [step] at hs
    split at hs
    · split at hs
      · obtain ⟨b, hb, rfl⟩ := Option.map_eq_some_iff.1 hs
        exact (arrive_eq hb).2.2 c (by rintro rfl; exact hno rfl)
      · cases hs
    · cases hs
  | readL d =>
    simp only [step] at hs
    split at hs
    · split at hs
      · obtain ⟨b, hb, rfl⟩ := Option.map_eq_some_iff.1 hs; rfl
      · cases hs
    · cases hs
  | left o =>
    simp only [step] at hs
    split at hs
    · obtain ⟨a, ha, hs⟩ := Option.bind_eq_some_iff.1 hs
      split at hs
      · split at hs
        · obtain ⟨l, hl, rfl⟩ := Option.map_eq_some_iff.1 hs; rfl
        · cases hs; rfl
      · cases hs; rfl
    · cases hs
  | right o =>
    simp only [step] at hs
    split at hs
    · rename_i hloc
      obtain ⟨a, ha, hs⟩ := Option.bind_eq_some_iff.1 hs
      have h := arrived_local ha hloc hl
      split at hs
      · split at hs
        · obtain ⟨l, hl, rfl⟩ := Option.map_eq_some_iff.1 hs; exact h
        · cases hs; exact h
      · cases hs; exact h
    · cases hs
  | linkR d o =>
    simp only [step] at hs
    obtain ⟨l, hl, rfl⟩ := Option.map_eq_some_iff.1 hs; rfl
  | linkL d o =>
    simp only [step] at hs
    obtain ⟨l, hl, rfl⟩ := Option.map_eq_some_iff.1 hs; rfl

/-- What is not read does not arrive. -/
theorem arrived_kept (E : Execution (step ca cb linked LR LL) (init LR LL) σ op) {c n : Nat} (hl : linked c = true)
    (hno : ∀ m, n ≤ m → op m ≠ some (.readR c)) {m : Nat} (hm : n ≤ m) : (σ m).sys.b.arrived c = (σ n).sys.b.arrived c := by
  induction hm with
  | refl => rfl
  | @step m hm ih =>
    rw [← ih]
    have hno' := hno m hm
    rcases exec_step E m with ⟨h, -⟩ | ⟨o, h0, h⟩
    · rw [h]
    · exact arrived_other h hl (by rintro rfl; exact hno' h0)

theorem swap_sysOps (op : Nat → Option (Op LR LL)) : sysOps (fun n => (op n).map Op.swap) = fun n => (sysOps op n).map System.Op.swap := by
  funext n
  simp only [sysOps]
  cases op n with
  | none => rfl
  | some o => cases o <;> rfl

theorem Carriable.swap {s : St CA CB LR LL} (h : Carriable linked carR carL s) : Carriable linked carL carR s.swap := fun c hc => ⟨(h c hc).2, (h c hc).1⟩

/-- The system reads what has been written, as long as the connection is read. -/
theorem fair_toRight (F : Fair ca cb linked WR TR WL TL σ op) (MR : ∀ c, Link.Moves (LR c) (carR c) (WR c) (TR c)) 
    (ML : ∀ c, Link.Moves (LL c) (carL c) (WL c) (TL c)) (hc : ∀ n, Carriable linked carR carL (σ n))
    (E : Execution (System.step ca cb linked) {} (fun n => (σ n).sys) (sysOps op)) (c : Nat) :
    WeaklyFairWhile (System.step ca cb linked) (fun n => (σ n).sys) (sysOps op) (fun s => Receiving s.b c) (· = .toRight c) := by
  intro n hn
  have FB : FairRun cb (fun n => (σ n).sys.b) (System.leftOp (fun n => ((σ n).sys).swap) fun n => (sysOps op n).map System.Op.swap) := by
    refine System.fairRun_left' (System.exec_swap E) ?_
    have := fair_left F.swap ML (fun n => (hc n).swap) (by rw [swap_sysOps]; exact System.exec_swap E)
    rw [swap_sysOps] at this
    exact this
  by_cases hno : ∃ m, n ≤ m ∧ op m = some (.readR c)
  · obtain ⟨m, hm, h⟩ := hno
    exact ⟨m, hm, _, by simp [sysOps, h]; rfl, rfl⟩
  exfalso
  have hno' : ∀ m, n ≤ m → op m ≠ some (.readR c) := fun m hm h => hno ⟨m, hm, h⟩
  have poss : ∀ m, n ≤ m → linked c = true ∧ ((σ m).sys.b.arrived c).length < ((σ m).sys.a.out c).length := by
    intro m hm
    obtain ⟨-, o, s', rfl, hs⟩ := hn m hm
    simp only [System.step] at hs
    split at hs
    · rename_i hl
      split at hs
      · rename_i x hx
        exact ⟨hl, (List.getElem?_eq_some_iff.1 hx).1⟩
      · cases hs
    · cases hs
  have hl := (poss n (Nat.le_refl _)).1
  have harr : ∀ m, n ≤ m → (σ m).sys.b.arrived c = (σ n).sys.b.arrived c := fun m hm => arrived_kept F.run hl hno' hm
  have R := link_runs F.run hl
  obtain ⟨m1, hm1, hsent⟩ := R.carried (MR c) (car_events hc hl) (fair_writes F c) (fair_carries F c) n
  obtain ⟨m2, hm2, hh⟩ := all_handled FB (c := c) (n := n) (fun m hm => (hn m hm).1) ((σ n).sys.b.arrived c).length (Nat.le_refl _)
  obtain ⟨m, hm, o, ho, rfl⟩ := F.readsR c (max m1 m2) (fun m hm => by
    have hA : Receiving (σ m).sys.b c := (hn m (by omega)).1
    have h1 := arrInv (exec_reach FB.run m) c
    have h2 := (handledOn_prefix (exec_ext FB.run (show m2 ≤ m by omega)) c).length_le
    try dsimp only at h1 h2 hh
    have h3 := congrArg List.length h1
    rw [harr m (by omega), List.length_append, List.length_append] at h3
    have hin : (σ m).sys.b.inbox c = [] := List.length_eq_zero_iff.1 (by omega)
    have hhe : (held ((σ m).sys.b.loop c)).length = 0 := by omega
    have hidle : (σ m).sys.b.loop c = .idle := by
      cases hlo : (σ m).sys.b.loop c with
      | idle => rfl
      | sending r e => rw [hlo] at hhe; simp [held] at hhe
      | ended l => exact absurd hlo (hA l)
    have hlt := (poss n (Nat.le_refl _)).2
    obtain ⟨e, l, hr⟩ := (MR c).can_read (R.hist m) (car_events hc hl m) (by simpa using (poss m (by omega)).2) (by
      obtain ⟨tl, htl⟩ := (R.later (MR c) (show n ≤ m by omega)).2.2
      try dsimp only at htl
      rw [← htl, harr m (by omega), List.take_append_of_le_length (by simp; omega)]
      have h4 := (MR c).size_mono ((((σ n).sys.a.out c).map (·.event)).take (((σ n).sys.b.arrived c).length + 1))
        ((((σ n).sys.a.out c).map (·.event)).drop (((σ n).sys.b.arrived c).length + 1))
      rw [List.take_append_drop] at h4
      have h5 := (R.later (MR c) (show m1 ≤ m by omega)).2.1
      try dsimp only at h5 hsent
      omega)
    have : ∃ s', step ca cb linked LR LL (σ m) (.readR c) = some s' := by
      simp only [step, hl, hidle, hin, and_self, if_true, hr, Endpoint.step, Option.map_some]
      exact ⟨_, rfl⟩
    obtain ⟨s', hs'⟩ := this
    exact ⟨_, s', rfl, hs'⟩)
  exact hno' m (by omega) ho

/-- For the endpoints, a fair execution of the stack is a fair execution of the system. -/
theorem fair_sys (F : Fair ca cb linked WR TR WL TL σ op) (MR : ∀ c, Link.Moves (LR c) (carR c) (WR c) (TR c)) 
    (ML : ∀ c, Link.Moves (LL c) (carL c) (WL c) (TL c)) (hR : ∀ c, linked c = true → (LR c).Faithful (carR c))
    (hL : ∀ c, linked c = true → (LL c).Faithful (carL c)) (hc : ∀ n, Carriable linked carR carL (σ n)) :
    FairSys ca cb linked (fun n => (σ n).sys) (sysOps op) := by
  have E := exec_sys hR hL F.run hc
  have E' := exec_sys hL hR F.swap.run fun n => (hc n).swap
  have back : (fun n => ((sysOps op n).map System.Op.swap).map System.Op.swap) = sysOps op := by
    funext n
    cases sysOps op n with
    | none => rfl
    | some o => simp [System.Op.swap_swap]
  refine ⟨E, fair_left F MR hc E, ?_, fair_toRight F MR ML hc E, fun c => ?_⟩
  · have h := fair_left F.swap ML (fun n => (hc n).swap) E'
    rw [swap_sysOps] at h
    have h2 := System.fairSide_swap (l' := .right) (by intro o p; cases o <;> simp [System.Op.swap]) h
    rw [back] at h2
    exact h2
  · have h := fair_toRight F.swap ML MR (fun n => (hc n).swap) E' c
    rw [swap_sysOps] at h
    have h2 := System.toLeft_swap h
    rw [back] at h2
    exact h2

end
end Bromine.Stack
