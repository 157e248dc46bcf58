import Verif.Model.Stack
import Verif.Spec.Link
import Verif.Lemmas.System
/-
The stack refines the system of two joined endpoints.
-/
namespace Bromine.Stack
open Bromine.Endpoint

variable {CA CB : Type} {ca : Config CA} {cb : Config CB} {linked : Nat → Bool} {LR LL : Nat → Link}

@[simp] theorem updD_same {F : Nat → Type} (f : (c : Nat) → F c) (c : Nat) (x : F c) : updD f c x c = x := by simp [updD]

theorem updD_ne {F : Nat → Type} (f : (c : Nat) → F c) {c d : Nat} (x : F c) (h : d ≠ c) : updD f c x d = f d := by simp [updD, h]

/-- What a step adds to the events written on connection `c`. -/
def adds (o : Option (Nat × Event)) (c : Nat) : List Event :=
  match o with
  | some (d, e) => if d = c then [e] else []
  | none => []

/-- `emits` says what goes out. -/
theorem out_step {C : Type} {cfg : Config C} {s s' : State C} {op : Endpoint.Op} (h : Endpoint.step cfg s op = some s') (c : Nat) :
    (s'.out c).map (·.event) = (s.out c).map (·.event) ++ adds (emits cfg s op) c := by
  cases stepR_of_step h
  case sent r q hq hp =>
    simp only [emits, hq, Option.map_some, adds, upd_apply, eq_comm (a := q.conn)]
    split <;> simp_all
  case emit ctx c' ref ns name payload id hc =>
    simp only [emits, hc, Option.map_some, adds, upd_apply, eq_comm (a := c')]
    split <;> simp_all
  case respond t k res id hk hp =>
    simp only [emits, hk, hp, adds, upd_apply, eq_comm (a := k.conn)]
    split <;> simp_all
  all_goals simp [emits, adds]

/-- Only `arrive` adds to the arrived events. -/
theorem arrived_step {C : Type} {cfg : Config C} {s s' : State C} {op : Endpoint.Op} (h : Endpoint.step cfg s op = some s') :
    (∃ c e, op = .arrive c e) ∨ s'.arrived = s.arrived := by
  cases stepR_of_step h
  case arrive c e => exact .inl ⟨c, e, rfl⟩
  all_goals exact .inr rfl

/-- The links carry what the endpoints emit and receive. -/
structure Inv (linked : Nat → Bool) (s : St CA CB LR LL) : Prop where
  right : ∀ c, linked c = true → Link.Hist (LR c) (s.right c) ((s.sys.a.out c).map (·.event)) (s.sys.b.arrived c)
  left : ∀ c, linked c = true → Link.Hist (LL c) (s.left c) ((s.sys.b.out c).map (·.event)) (s.sys.a.arrived c)

theorem arrived_local {C : Type} {cfg : Config C} {s s' : State C} {op : Endpoint.Op} (h : Endpoint.step cfg s op = some s')
    (hl : System.isLocal linked op = true) {c : Nat} (hc : linked c = true) : s'.arrived c = s.arrived c := by
  rcases arrived_step h with ⟨d, e, rfl⟩ | h1
  · have hd : linked d = false := by simpa [System.isLocal] using hl
    simp only [Endpoint.step, Option.some.injEq] at h
    subst h
    have : c ≠ d := by rintro rfl; rw [hc] at hd; cases hd
    simp [this]
  · rw [h1]

theorem arrive_eq {C : Type} {cfg : Config C} {s s' : State C} {c : Nat} {e : Event} (h : Endpoint.step cfg s (.arrive c e) = some s') :
    s'.out = s.out ∧ s'.arrived c = s.arrived c ++ [e] ∧ ∀ d, d ≠ c → s'.arrived d = s.arrived d := by
  simp only [Endpoint.step, Option.some.injEq] at h
  subst h
  refine ⟨rfl, by simp, fun d hd => by simp [hd]⟩

theorem inv_init : Inv linked (init (CA := CA) (CB := CB) LR LL) :=
  ⟨fun _ _ => .init, fun _ _ => .init⟩

theorem inv_step {s s' : St CA CB LR LL} {op : Op LR LL} (h : Inv linked s) (hs : step ca cb linked LR LL s op = some s') : Inv linked s' := by
  cases op with
  | left op =>
    simp only [step] at hs
    split at hs
    · rename_i hloc
      obtain ⟨a, ha, hs⟩ := Option.bind_eq_some_iff.1 hs
      have hout := out_step ha
      cases hem : emits ca s.sys.a op with
      | none =>
        rw [hem] at hs hout
        cases hs
        exact ⟨fun c hc => by simpa [hout, adds] using h.right c hc, fun c hc => by simpa [arrived_local ha hloc hc] using h.left c hc⟩
      | some p =>
        obtain ⟨d, e⟩ := p
        rw [hem] at hs hout
        simp only at hs
        split at hs
        · obtain ⟨l, hl, rfl⟩ := Option.map_eq_some_iff.1 hs
          refine ⟨fun c hc => ?_, fun c hc => by simpa [arrived_local ha hloc hc] using h.left c hc⟩
          by_cases hcd : c = d
          · subst hcd
            simp only [hout, adds, updD_same, if_true]
            exact .emit e (h.right c hc) hl
          · simp only [hout, adds, updD_ne s.right l hcd, Ne.symm hcd, if_false, List.append_nil]
            exact h.right c hc
        · rename_i hld
          cases hs
          refine ⟨fun c hc => ?_, fun c hc => by simpa [arrived_local ha hloc hc] using h.left c hc⟩
          have hcd : d ≠ c := by rintro rfl; exact hld hc
          simp only [hout, adds, hcd, if_false, List.append_nil]
          exact h.right c hc
    · cases hs
  | right op =>
    simp only [step] at hs
    split at hs
    · rename_i hloc
      obtain ⟨b, hb, hs⟩ := Option.bind_eq_some_iff.1 hs
      have hout := out_step hb
      cases hem : emits cb s.sys.b op with
      | none =>
        rw [hem] at hs hout
        cases hs
        exact ⟨fun c hc => by simpa [arrived_local hb hloc hc] using h.right c hc, fun c hc => by simpa [hout, adds] using h.left c hc⟩
      | some p =>
        obtain ⟨d, e⟩ := p
        rw [hem] at hs hout
        simp only at hs
        split at hs
        · obtain ⟨l, hl, rfl⟩ := Option.map_eq_some_iff.1 hs
          refine ⟨fun c hc => by simpa [arrived_local hb hloc hc] using h.right c hc, fun c hc => ?_⟩
          by_cases hcd : c = d
          · subst hcd
            simp only [hout, adds, updD_same, if_true]
            exact .emit e (h.left c hc) hl
          · simp only [hout, adds, updD_ne s.left l hcd, Ne.symm hcd, if_false, List.append_nil]
            exact h.left c hc
        · rename_i hld
          cases hs
          refine ⟨fun c hc => by simpa [arrived_local hb hloc hc] using h.right c hc, fun c hc => ?_⟩
          have hcd : d ≠ c := by rintro rfl; exact hld hc
          simp only [hout, adds, hcd, if_false, List.append_nil]
          exact h.left c hc
    · cases hs
  | linkR d o =>
    simp only [step] at hs
    obtain ⟨l, hl, rfl⟩ := Option.map_eq_some_iff.1 hs
    refine ⟨fun c hc => ?_, h.left⟩
    by_cases hcd : c = d
    · subst hcd; simp only [updD_same]; exact .step o (h.right c hc) hl
    · simp only [updD_ne s.right l hcd]; exact h.right c hc
  | linkL d o =>
    simp only [step] at hs
    obtain ⟨l, hl, rfl⟩ := Option.map_eq_some_iff.1 hs
    refine ⟨h.right, fun c hc => ?_⟩
    by_cases hcd : c = d
    · subst hcd; simp only [updD_same]; exact .step o (h.left c hc) hl
    · simp only [updD_ne s.left l hcd]; exact h.left c hc
  | readR d =>
    simp only [step] at hs
    split at hs
    · split at hs
      · rename_i e l hr
        obtain ⟨b, hb, rfl⟩ := Option.map_eq_some_iff.1 hs
        obtain ⟨h1, h2, h3⟩ := arrive_eq hb
        refine ⟨fun c hc => ?_, fun c hc => by simpa [h1] using h.left c hc⟩
        by_cases hcd : c = d
        · subst hcd; simp only [updD_same, h2]; exact .read e (h.right c hc) hr
        · simp only [updD_ne s.right l hcd, h3 c hcd]; exact h.right c hc
      · cases hs
    · cases hs
  | readL d =>
    simp only [step] at hs
    split at hs
    · split at hs
      · rename_i e l hr
        obtain ⟨b, hb, rfl⟩ := Option.map_eq_some_iff.1 hs
        obtain ⟨h1, h2, h3⟩ := arrive_eq hb
        refine ⟨fun c hc => by simpa [h1] using h.right c hc, fun c hc => ?_⟩
        by_cases hcd : c = d
        · subst hcd; simp only [updD_same, h2]; exact .read e (h.left c hc) hr
        · simp only [updD_ne s.left l hcd, h3 c hcd]; exact h.left c hc
      · cases hs
    · cases hs

theorem reachable_induction {P : St CA CB LR LL → Prop} (h0 : P (init LR LL))
    (hstep : ∀ s op s', Reachable ca cb linked LR LL s → P s → step ca cb linked LR LL s op = some s' → P s')
    {s : St CA CB LR LL} (h : Reachable ca cb linked LR LL s) : P s := by
  obtain ⟨ops, ho⟩ := h
  suffices ∀ (ops : List (Op LR LL)) (s0 s : St CA CB LR LL), Reachable ca cb linked LR LL s0 → P s0 → run ca cb linked LR LL s0 ops = some s → P s from
    this ops _ s ⟨[], rfl⟩ h0 ho
  intro ops
  induction ops with
  | nil => intro s0 s _ hp hr; cases hr; exact hp
  | cons o ops ih =>
    intro s0 s hre hp hr
    simp only [run, Option.bind_eq_some_iff] at hr
    obtain ⟨s1, h1, h2⟩ := hr
    refine ih s1 s ?_ (hstep s0 o s1 hre hp h1) h2
    obtain ⟨ops0, ho0⟩ := hre
    refine ⟨ops0 ++ [o], ?_⟩
    clear ih hp h2
    generalize init LR LL = x at ho0
    induction ops0 generalizing x with
    | nil => simp only [run, Option.some.injEq] at ho0; subst ho0; simp [run, h1]
    | cons o' ops0 ih' =>
      simp only [run, Option.bind_eq_some_iff, List.cons_append] at ho0 ⊢
      obtain ⟨z, hz, hz'⟩ := ho0
      exact ⟨z, hz, ih' z hz'⟩

theorem inv {s : St CA CB LR LL} (h : Reachable ca cb linked LR LL s) : Inv linked s :=
  reachable_induction (P := fun s => Inv linked s) inv_init (fun _ _ _ _ hi hs => inv_step hi hs) h

theorem system_snoc {s s' : System.Sys CA CB} {op : System.Op} (h : System.Reachable ca cb linked s)
    (hs : System.step ca cb linked s op = some s') : System.Reachable ca cb linked s' := by
  obtain ⟨ops, ho⟩ := h
  refine ⟨ops ++ [op], ?_⟩
  generalize ({} : System.Sys CA CB) = x at ho
  induction ops generalizing x with
  | nil => simp only [System.run, Option.some.injEq] at ho; subst ho; simp [System.run, hs]
  | cons o' ops0 ih' =>
    simp only [System.run, Option.bind_eq_some_iff, List.cons_append] at ho ⊢
    obtain ⟨z, hz, hz'⟩ := ho
    exact ⟨z, hz, ih' z hz'⟩

/-- Out and created grow only. -/
theorem out_grows {C : Type} {cfg : Config C} {s s' : State C} {op : Endpoint.Op} (h : Endpoint.step cfg s op = some s') (c : Nat) :
    (s.out c).map (·.event) <+: (s'.out c).map (·.event) := by
  rw [out_step h c]; exact List.prefix_append _ _

/-- All that was written on linked connections can be carried by them. -/
def Carriable (linked : Nat → Bool) (carR carL : Nat → Event → Prop) (s : St CA CB LR LL) : Prop :=
  ∀ c, linked c = true → (∀ x ∈ s.sys.a.out c, carR c x.event) ∧ (∀ x ∈ s.sys.b.out c, carL c x.event)

theorem sys_cases {s s' : St CA CB LR LL} {op : Op LR LL} (hs : step ca cb linked LR LL s op = some s') :
    (∃ o, System.isLocal linked o = true ∧ Endpoint.step ca s.sys.a o = some s'.sys.a ∧ s'.sys.b = s.sys.b) ∨
    (∃ o, System.isLocal linked o = true ∧ Endpoint.step cb s.sys.b o = some s'.sys.b ∧ s'.sys.a = s.sys.a) ∨
    s'.sys = s.sys ∨
    (∃ c e l, linked c = true ∧ (LR c).read (s.right c) = some (e, l) ∧ Endpoint.step cb s.sys.b (.arrive c e) = some s'.sys.b ∧ s'.sys.a = s.sys.a) ∨
    (∃ c e l, linked c = true ∧ (LL c).read (s.left c) = some (e, l) ∧ Endpoint.step ca s.sys.a (.arrive c e) = some s'.sys.a ∧ s'.sys.b = s.sys.b) := by
  cases op with
  | left op =>
    refine .inl ?_
    simp only [step] at hs
    split at hs
    · rename_i hloc
      obtain ⟨a, ha, hs⟩ := Option.bind_eq_some_iff.1 hs
      refine ⟨op, hloc, ?_⟩
      split at hs
      · split at hs
        · obtain ⟨l, hl, rfl⟩ := Option.map_eq_some_iff.1 hs; exact ⟨ha, rfl⟩
        · cases hs; exact ⟨ha, rfl⟩
      · cases hs; exact ⟨ha, rfl⟩
    · cases hs
  | right op =>
    refine .inr (.inl ?_)
    simp only [step] at hs
    split at hs
    · rename_i hloc
      obtain ⟨a, ha, hs⟩ := Option.bind_eq_some_iff.1 hs
      refine ⟨op, hloc, ?_⟩
      split at hs
      · split at hs
        · obtain ⟨l, hl, rfl⟩ := Option.map_eq_some_iff.1 hs; exact ⟨ha, rfl⟩
        · cases hs; exact ⟨ha, rfl⟩
      · cases hs; exact ⟨ha, rfl⟩
    · cases hs
  | linkR d o =>
    simp only [step] at hs
    obtain ⟨l, hl, rfl⟩ := Option.map_eq_some_iff.1 hs
    exact .inr (.inr (.inl rfl))
  | linkL d o =>
    simp only [step] at hs
    obtain ⟨l, hl, rfl⟩ := Option.map_eq_some_iff.1 hs
    exact .inr (.inr (.inl rfl))
  | readR d =>
    simp only [step] at hs
    split at hs
    · rename_i hc
      split at hs
      · rename_i e l hr
        obtain ⟨b, hb, rfl⟩ := Option.map_eq_some_iff.1 hs
        exact .inr (.inr (.inr (.inl ⟨d, e, l, hc.1, hr, hb, rfl⟩)))
      · cases hs
    · cases hs
  | readL d =>
    simp only [step] at hs
    split at hs
    · rename_i hc
      split at hs
      · rename_i e l hr
        obtain ⟨b, hb, rfl⟩ := Option.map_eq_some_iff.1 hs
        exact .inr (.inr (.inr (.inr ⟨d, e, l, hc.1, hr, hb, rfl⟩)))
      · cases hs
    · cases hs

theorem out_sub {s s' : St CA CB LR LL} {op : Op LR LL} (hs : step ca cb linked LR LL s op = some s') (c : Nat) :
    (s.sys.a.out c).map (·.event) <+: (s'.sys.a.out c).map (·.event) ∧ (s.sys.b.out c).map (·.event) <+: (s'.sys.b.out c).map (·.event) := by
  rcases sys_cases hs with ⟨o, -, h1, h2⟩ | ⟨o, -, h1, h2⟩ | h1 | ⟨d, e, l, -, -, h1, h2⟩ | ⟨d, e, l, -, -, h1, h2⟩
  · rw [h2]; exact ⟨out_grows h1 c, List.prefix_rfl⟩
  · rw [h2]; exact ⟨List.prefix_rfl, out_grows h1 c⟩
  · rw [h1]; exact ⟨List.prefix_rfl, List.prefix_rfl⟩
  · rw [h2]; exact ⟨List.prefix_rfl, out_grows h1 c⟩
  · rw [h2]; exact ⟨out_grows h1 c, List.prefix_rfl⟩

theorem carriable_back {carR carL : Nat → Event → Prop} {s s' : St CA CB LR LL} {op : Op LR LL}
    (hs : step ca cb linked LR LL s op = some s') (h : Carriable linked carR carL s') : Carriable linked carR carL s := by
  intro c hc
  obtain ⟨h1, h2⟩ := h c hc
  obtain ⟨g1, g2⟩ := out_sub hs c
  constructor
  · intro x hx
    obtain ⟨y, hy, hye⟩ := List.mem_map.1 (g1.subset (List.mem_map.2 ⟨x, hx, rfl⟩))
    rw [← hye]; exact h1 y hy
  · intro x hx
    obtain ⟨y, hy, hye⟩ := List.mem_map.1 (g2.subset (List.mem_map.2 ⟨x, hx, rfl⟩))
    rw [← hye]; exact h2 y hy

theorem next_of_read {L : Link} {car : Event → Prop} (hf : L.Faithful car) {s s' : L.State} {out : List OutEntry} {rd : List Event} {e : Event}
    (hh : L.Hist s (out.map (·.event)) rd) (hr : L.read s = some (e, s')) (hc : ∀ x ∈ out, car x.event) :
    ∃ x, out[rd.length]? = some x ∧ x.event = e := by
  have h1 := hf _ _ _ (.read e hh hr) (by
    intro e' he'
    obtain ⟨x, hx, rfl⟩ := List.mem_map.1 he'
    exact hc x hx)
  obtain ⟨tl, htl⟩ := h1
  have : (out.map (·.event))[rd.length]? = some e := by rw [← htl]; simp
  rw [List.getElem?_map] at this
  exact Option.map_eq_some_iff.1 this

/-- Every state of the stack is, for the endpoints, a state of the system of Model/System.lean. -/
theorem refines {carR carL : Nat → Event → Prop} (hR : ∀ c, linked c = true → (LR c).Faithful (carR c))
    (hL : ∀ c, linked c = true → (LL c).Faithful (carL c)) {s : St CA CB LR LL} (h : Reachable ca cb linked LR LL s) :
    Carriable linked carR carL s → System.Reachable ca cb linked s.sys := by
  refine reachable_induction (P := fun s => Carriable linked carR carL s → System.Reachable ca cb linked s.sys) (fun _ => ⟨[], rfl⟩) ?_ h
  intro s op s' hre ih hs hcar
  have hcar0 := carriable_back hs hcar
  have ih := ih hcar0
  have hinv := inv hre
  rcases sys_cases hs with ⟨o, hloc, h1, h2⟩ | ⟨o, hloc, h1, h2⟩ | h1 | ⟨d, e, l, hd, hr, h1, h2⟩ | ⟨d, e, l, hd, hr, h1, h2⟩
  · refine system_snoc (op := .left o) ih ?_
    simp only [System.step, hloc, if_true, h1, Option.map_some]
    rw [← h2]
  · refine system_snoc (op := .right o) ih ?_
    simp only [System.step, hloc, if_true, h1, Option.map_some]
    rw [← h2]
  · rw [h1]; exact ih
  · obtain ⟨x, hx, hxe⟩ := next_of_read (hR d hd) (hinv.right d hd) hr (hcar0 d hd).1
    refine system_snoc (op := .toRight d) ih ?_
    simp only [System.step, hd, if_true, hx, hxe, h1, Option.map_some]
    rw [← h2]
  · obtain ⟨x, hx, hxe⟩ := next_of_read (hL d hd) (hinv.left d hd) hr (hcar0 d hd).2
    refine system_snoc (op := .toLeft d) ih ?_
    simp only [System.step, hd, if_true, hx, hxe, h1, Option.map_some]
    rw [← h2]

end Bromine.Stack
