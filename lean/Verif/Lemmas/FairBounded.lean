import Verif.Spec.FairBounded
import Verif.Props.Bounded
import Verif.Props.Fair
/-
Helpers for C98.
-/
namespace Bromine.Bounded
open Bromine.Endpoint Bromine.System Spec Props

section
variable {CA CB : Type} {ca : Config CA} {cb : Config CB} {linked : Nat → Bool} {roomR roomL : Nat → List Event → Event → Bool}
  {σ : Nat → Sys CA CB} {op : Nat → Option System.Op}

theorem swap_step {s s' : Sys CA CB} {o : System.Op} (h : step ca cb linked roomR roomL s o = some s') :
    step cb ca linked roomL roomR s.swap o.swap = some s'.swap := by
  simp only [step, Option.bind_eq_some_iff] at h ⊢
  obtain ⟨m, h1, h2⟩ := h
  refine ⟨m.swap, by rw [System.step_swap, h1]; rfl, ?_⟩
  cases o with
  | left o =>
    simp only at h2
    split at h2
    · rename_i hf; cases h2; simp only [System.Op.swap]; exact if_pos hf
    · cases h2
  | right o =>
    simp only at h2
    split at h2
    · rename_i hf; cases h2; simp only [System.Op.swap]; exact if_pos hf
    · cases h2
  | toLeft c => cases h2; rfl
  | toRight c => cases h2; rfl

theorem exec_system (E : Execution (step ca cb linked roomR roomL) {} σ op) : Execution (System.step ca cb linked) {} σ op := by
  refine ⟨E.start, fun n => ?_⟩
  have := E.next n
  cases h : op n with
  | none => rw [h] at this; exact this
  | some o => rw [h] at this; exact step_system this

theorem exec_swap (E : Execution (step ca cb linked roomR roomL) {} σ op) :
    Execution (step cb ca linked roomL roomR) {} (fun n => (σ n).swap) (fun n => (op n).map System.Op.swap) := by
  refine ⟨by rw [E.start]; rfl, fun n => ?_⟩
  have := E.next n
  cases h : op n with
  | none => rw [h] at this; simp only [Option.map_none]; rw [this]
  | some o => rw [h] at this; simp only [Option.map_some]; exact swap_step this

theorem poss_swap (s : Sys CA CB) (C : System.Op → Prop) (h : Possible (step cb ca linked roomL roomR) s.swap C) :
    Possible (step ca cb linked roomR roomL) s (fun o => C o.swap) := by
  obtain ⟨o, s', h1, h2⟩ := h
  exact ⟨o.swap, s'.swap, by show C o.swap.swap; rw [System.Op.swap_swap]; exact h1, swap_step h2⟩

theorem fairSide_swap {l l' : Endpoint.Op → System.Op} (hl : ∀ o p, o = l p ↔ o.swap = l' p) (R : FairSideB (step ca cb linked roomR roomL) σ op l) :
    FairSideB (step cb ca linked roomL roomR) (fun n => (σ n).swap) (fun n => (op n).map System.Op.swap) l' := by
  have weak : ∀ C D : System.Op → Prop, (∀ o, C o ↔ D o.swap) → WeaklyFair (step ca cb linked roomR roomL) σ op C →
      WeaklyFair (step cb ca linked roomL roomR) (fun n => (σ n).swap) (fun n => (op n).map System.Op.swap) D := by
    intro C D hCD h n hn
    have hC : C = fun o => D o.swap := funext fun o => propext (hCD o)
    subst hC
    obtain ⟨m, hm, o, ho, hc⟩ := h n (fun m hm => poss_swap (σ m) D (hn m hm))
    exact ⟨m, hm, o.swap, by simp [ho], hc⟩
  have strong : ∀ C D : System.Op → Prop, (∀ o, C o ↔ D o.swap) → StronglyFair (step ca cb linked roomR roomL) σ op C →
      StronglyFair (step cb ca linked roomL roomR) (fun n => (σ n).swap) (fun n => (op n).map System.Op.swap) D := by
    intro C D hCD h n hn
    have hC : C = fun o => D o.swap := funext fun o => propext (hCD o)
    subst hC
    obtain ⟨m, hm, o, ho, hc⟩ := h n (fun m hm => by
      obtain ⟨m', hm', hp⟩ := hn m hm
      exact ⟨m', hm', poss_swap (σ m') D hp⟩)
    exact ⟨m, hm, o.swap, by simp [ho], hc⟩
  have mixed : ∀ C D C' D' : System.Op → Prop, (∀ o, C o ↔ D o.swap) → (∀ o, C' o ↔ D' o.swap) →
      (∀ n, (∀ m, n ≤ m → ∃ m', m ≤ m' ∧ Possible (step ca cb linked roomR roomL) (σ m') C) → ∃ m, n ≤ m ∧ ∃ o, op m = some o ∧ C' o) →
      ∀ n, (∀ m, n ≤ m → ∃ m', m ≤ m' ∧ Possible (step cb ca linked roomL roomR) (σ m').swap D) → ∃ m, n ≤ m ∧ ∃ o, (op m).map System.Op.swap = some o ∧ D' o := by
    intro C D C' D' hCD hCD' h n hn
    have hC : C = fun o => D o.swap := funext fun o => propext (hCD o)
    subst hC
    obtain ⟨m, hm, o, ho, hc⟩ := h n (fun m hm => by
      obtain ⟨m', hm', hp⟩ := hn m hm
      exact ⟨m', hm', poss_swap (σ m') D hp⟩)
    exact ⟨m, hm, o.swap, by simp [ho], (hCD' o).1 hc⟩
  refine ⟨fun c => weak _ _ ?_ (R.takes c), fun c => strong _ _ ?_ (R.delivers c), fun r => weak _ _ ?_ (R.reads r),
    fun r => weak _ _ ?_ (R.finishes r), fun t => weak _ _ ?_ (R.handlers t), fun r => mixed _ _ _ _ ?_ ?_ (R.sends r), fun t => mixed _ _ _ _ ?_ ?_ (R.responds t)⟩
  all_goals (intro o; simp only [hl])

theorem toRight_swap {c : Nat} (h : WeaklyFairWhile (step ca cb linked roomR roomL) σ op (fun s => Receiving s.a c) (· = .toLeft c)) :
    WeaklyFairWhile (step cb ca linked roomL roomR) (fun n => (σ n).swap) (fun n => (op n).map System.Op.swap) (fun s => Receiving s.b c) (· = .toRight c) := by
  intro n hn
  obtain ⟨m, hm, o, ho, rfl⟩ := h n fun m hm => ⟨(hn m hm).1, by
    obtain ⟨o, s', h1, h2⟩ := poss_swap (σ m) _ (hn m hm).2
    exact ⟨o, s', by cases o <;> simp_all [System.Op.swap], h2⟩⟩
  exact ⟨m, hm, _, by simp [ho]; rfl, rfl⟩

theorem toLeft_swap {c : Nat} (h : WeaklyFairWhile (step ca cb linked roomR roomL) σ op (fun s => Receiving s.b c) (· = .toRight c)) :
    WeaklyFairWhile (step cb ca linked roomL roomR) (fun n => (σ n).swap) (fun n => (op n).map System.Op.swap) (fun s => Receiving s.a c) (· = .toLeft c) := by
  intro n hn
  obtain ⟨m, hm, o, ho, rfl⟩ := h n fun m hm => ⟨(hn m hm).1, by
    obtain ⟨o, s', h1, h2⟩ := poss_swap (σ m) _ (hn m hm).2
    exact ⟨o, s', by cases o <;> simp_all [System.Op.swap], h2⟩⟩
  exact ⟨m, hm, _, by simp [ho]; rfl, rfl⟩

theorem fair_swap (F : FairBounded ca cb linked roomR roomL σ op) :
    FairBounded cb ca linked roomL roomR (fun n => (σ n).swap) (fun n => (op n).map System.Op.swap) :=
  ⟨exec_swap F.run, fairSide_swap (by intro o p; cases o <;> simp [System.Op.swap]) F.right, fairSide_swap (by intro o p; cases o <;> simp [System.Op.swap]) F.left,
    fun c => toRight_swap (F.toLeft c), fun c => toLeft_swap (F.toRight c)⟩

/-- A step of the first endpoint that writes nothing needs no room. -/
theorem quiet_step {s s' : Sys CA CB} {o : Endpoint.Op} (ht : target ca s.a o = none) (h : System.step ca cb linked s (.left o) = some s') :
    step ca cb linked roomR roomL s (.left o) = some s' := by
  simp [step, h, fits, ht]

theorem carry_step {s s' : Sys CA CB} {c : Nat} (h : System.step ca cb linked s (.toRight c) = some s') :
    step ca cb linked roomR roomL s (.toRight c) = some s' := by
  simp [step, h]

theorem carry_step' {s s' : Sys CA CB} {c : Nat} (h : System.step ca cb linked s (.toLeft c) = some s') :
    step ca cb linked roomR roomL s (.toLeft c) = some s' := by
  simp [step, h]

theorem quiet_weak {C : System.Op → Prop} (hC : ∀ o, C o → ∃ p, o = .left p ∧ ∀ s, target ca s p = none)
    (h : WeaklyFair (step ca cb linked roomR roomL) σ op C) : WeaklyFair (System.step ca cb linked) σ op C := by
  intro n hn
  refine h n fun m hm => ?_
  obtain ⟨o, s', h1, h2⟩ := hn m hm
  obtain ⟨p, rfl, ht⟩ := hC o h1
  exact ⟨_, s', h1, quiet_step (ht _) h2⟩

theorem quiet_strong {C : System.Op → Prop} (hC : ∀ o, C o → ∃ p, o = .left p ∧ ∀ s, target ca s p = none)
    (h : StronglyFair (step ca cb linked roomR roomL) σ op C) : StronglyFair (System.step ca cb linked) σ op C := by
  intro n hn
  refine h n fun m hm => ?_
  obtain ⟨m', hm', o, s', h1, h2⟩ := hn m hm
  obtain ⟨p, rfl, ht⟩ := hC o h1
  exact ⟨m', hm', _, s', h1, quiet_step (ht _) h2⟩

/-- Nothing is written where there is no room. -/
theorem no_room {s s' : Sys CA CB} {o : System.Op} (h : step ca cb linked roomR roomL s o = some s') {c : Nat} (hl : linked c = true)
    (hfull : ∀ e, roomR c (pending s.a s.b c) e = false) : s'.a.out c = s.a.out c := by
  have hms := step_system h
  cases o with
  | left o =>
    simp only [System.step] at hms
    split at hms
    · obtain ⟨a', h9, rfl⟩ := Option.map_eq_some_iff.1 hms
      rcases writes_at h9 c with h10 | ⟨h10, x, h11⟩
      · exact h10
      · simp [step, Option.bind_eq_some_iff, fits, h10, hl] at h
        simp [h11, hfull] at h
    · cases hms
  | right o =>
    simp only [System.step] at hms
    split at hms
    · obtain ⟨b', h9, rfl⟩ := Option.map_eq_some_iff.1 hms; rfl
    · cases hms
  | toRight c' =>
    simp only [System.step] at hms
    split at hms
    · split at hms
      · obtain ⟨b', h9, rfl⟩ := Option.map_eq_some_iff.1 hms; rfl
      · cases hms
    · cases hms
  | toLeft c' =>
    simp only [System.step] at hms
    split at hms
    · split at hms
      · obtain ⟨a', h9, rfl⟩ := Option.map_eq_some_iff.1 hms
        rcases writes_at h9 c with h10 | ⟨h10, -⟩
        · exact h10
        · cases h10
      · cases hms
    · cases hms

/-- The second endpoint deals with what arrives: it need not write anything for that. -/
theorem second_handles (F : FairBounded ca cb linked roomR roomL σ op) (hl : ∀ c, linked c = true) (hd : ∀ m, DistinctIds (σ m)) {c n : Nat}
    (hrec : ∀ m, n ≤ m → Receiving (σ m).b c) (j : Nat) (hj : j ≤ ((σ n).b.arrived c).length) : ∃ m, n ≤ m ∧ j ≤ (handledOn (σ m).b c).length := by
  have E := exec_system F.run
  have G := fair_swap F
  have E' := exec_system G.run
  have EL := exec_left E'
  have R := G.left
  have takes := fun c => weak_left (ca := cb) (cb := ca) (linked := linked) (σ := fun n => (σ n).swap) (op := fun n => (op n).map System.Op.swap)
    (C := fun o => ∃ t, o = Endpoint.Op.take c t) (by rintro o ⟨t, rfl⟩; rfl)
    (by
      have := quiet_weak (by rintro o ⟨t, rfl⟩; exact ⟨_, rfl, fun _ => rfl⟩) (R.takes c)
      intro k hk
      obtain ⟨m, hm, o, ho, t, rfl⟩ := this k (fun m hm => by obtain ⟨o, s', ⟨p, ⟨t, rfl⟩, rfl⟩, h⟩ := hk m hm; exact ⟨_, s', ⟨t, rfl⟩, h⟩)
      exact ⟨m, hm, _, ho, _, ⟨t, rfl⟩, rfl⟩)
  have delivers := fun c => strong_left (ca := cb) (cb := ca) (linked := linked) (σ := fun n => (σ n).swap) (op := fun n => (op n).map System.Op.swap)
    (C := fun o => ∃ t, o = Endpoint.Op.deliver c t) (by rintro o ⟨t, rfl⟩; rfl)
    (by
      have := quiet_strong (by rintro o ⟨t, rfl⟩; exact ⟨_, rfl, fun _ => rfl⟩) (R.delivers c)
      intro k hk
      obtain ⟨m, hm, o, ho, t, rfl⟩ := this k (fun m hm => by obtain ⟨m', hm', o, s', ⟨p, ⟨t, rfl⟩, rfl⟩, h⟩ := hk m hm; exact ⟨m', hm', _, s', ⟨t, rfl⟩, h⟩)
      exact ⟨m, hm, _, ho, _, ⟨t, rfl⟩, rfl⟩)
  have reads := fun r => weak_left (ca := cb) (cb := ca) (linked := linked) (σ := fun n => (σ n).swap) (op := fun n => (op n).map System.Op.swap)
    (C := fun o => o = Endpoint.Op.recv r) (by rintro o rfl; rfl)
    (by
      have := quiet_weak (by rintro o rfl; exact ⟨_, rfl, fun _ => rfl⟩) (R.reads r)
      intro k hk
      obtain ⟨m, hm, o, ho, rfl⟩ := this k (fun m hm => by obtain ⟨o, s', ⟨p, rfl, rfl⟩, h⟩ := hk m hm; exact ⟨_, s', rfl, h⟩)
      exact ⟨m, hm, _, ho, _, rfl, rfl⟩)
  have finishes := fun r => weak_left (ca := cb) (cb := ca) (linked := linked) (σ := fun n => (σ n).swap) (op := fun n => (op n).map System.Op.swap)
    (C := fun o => o = Endpoint.Op.finish r) (by rintro o rfl; rfl)
    (by
      have := quiet_weak (by rintro o rfl; exact ⟨_, rfl, fun _ => rfl⟩) (R.finishes r)
      intro k hk
      obtain ⟨m, hm, o, ho, rfl⟩ := this k (fun m hm => by obtain ⟨o, s', ⟨p, rfl, rfl⟩, h⟩ := hk m hm; exact ⟨_, s', rfl, h⟩)
      exact ⟨m, hm, _, ho, _, rfl, rfl⟩)
  refine all_handled_of EL (c := c) (fun m hm h => ?_) j hj
  refine next_handled_of EL takes delivers ?_ (fun k hk => hrec k (by omega)) h
  intro m r e _ hlo
  have hre := System.exec_reach E m
  obtain ⟨q, hq, _⟩ := (refInv (reachable_right hre)).sending c r e hlo
  exact room_again_of EL reads finishes m ⟨m, Nat.le_refl _, q, hq, not_registered hre (hd m) hl hlo hq⟩ ⟨q, hq⟩

/-- There is room again. -/
theorem room_comes (F : FairBounded ca cb linked roomR roomL σ op) (hl : ∀ c, linked c = true) (hd : ∀ m, DistinctIds (σ m)) (hroom : RoomByLoad roomR) {c n : Nat}
    (hrec : ∀ m, n ≤ m → Receiving (σ m).b c) : ∃ m, n ≤ m ∧ ∀ e, roomR c (pending (σ m).a (σ m).b c) e = true := by
  apply Classical.byContradiction
  intro hno
  have full : ∀ m, n ≤ m → ∀ e, roomR c (pending (σ m).a (σ m).b c) e = false := by
    intro m hm e
    cases h : roomR c (pending (σ m).a (σ m).b c) e with
    | false => rfl
    | true => exact absurd ⟨m, hm, fun e' => by rw [(hroom c).1 _ e' e]; exact h⟩ hno
  have E := exec_system F.run
  have same : ∀ m, n ≤ m → (σ m).a.out c = (σ n).a.out c := by
    intro m hm
    induction hm with
    | refl => rfl
    | @step m hm ih =>
      have := F.run.next m
      cases h : op m with
      | none => rw [h] at this; simp only at this; rw [this]; exact ih
      | some o => rw [h] at this; exact (no_room this (hl c) (full m hm)).trans ih
  obtain ⟨m1, hm1, h1⟩ := all_arrive_of E (c := c) (by
    intro k hk
    exact F.toRight c k fun m hm => ⟨(hk m hm).1, by
      obtain ⟨o, s', rfl, h⟩ := (hk m hm).2
      exact ⟨_, s', rfl, carry_step h⟩⟩) (hl c) n _ (Nat.le_refl _) hrec
  obtain ⟨m2, hm2, h2⟩ := second_handles F hl hd (n := m1) (fun m hm => hrec m (by omega)) _ (Nat.le_refl _)
  have hre := System.exec_reach E m2
  have hle := (fifo_right hre c (hl c)).length_le
  rw [List.length_map, same m2 (by omega)] at hle
  have harr := congrArg List.length (arrInv (reachable_right hre) c)
  simp only [List.length_append] at harr
  have hp : pending (σ m2).a (σ m2).b c = [] := by
    simp only [pending, List.map_eq_nil_iff, List.drop_eq_nil_iff, same m2 (by omega)]
    omega
  have := full m2 (by omega) (Event.new 0 none "" [] none .initiator)
  rw [hp, (hroom c).2] at this
  cases this

/-- A request of the first endpoint is written, or that fails, as if there were no limit, if its connection is read. -/
theorem sends_left (F : FairBounded ca cb linked roomR roomL σ op) (hl : ∀ c, linked c = true) (hd : ∀ m, DistinctIds (σ m)) (hroom : RoomByLoad roomR) {r N : Nat} {q0 : Req}
    (hq0 : (σ N).a.reqs r = some q0) (hrec : ∀ m, N ≤ m → Receiving (σ m).b q0.conn) :
    WeaklyFair (System.step ca cb linked) σ op fun o => o = .left (.sent r) ∨ o = .left (.sendFail r) := by
  have L := F.left
  have EL := exec_left (exec_system F.run)
  intro n hn
  have reg : ∀ m, n ≤ m → ∃ q, (σ m).a.reqs r = some q ∧ q.phase = .registered := by
    intro m hm
    obtain ⟨o, s', ho, hs⟩ := hn m hm
    rcases ho with rfl | rfl
    · simp only [System.step] at hs
      split at hs
      · obtain ⟨a', h1, -⟩ := Option.map_eq_some_iff.1 hs
        have h1 := stepR_of_step h1
        cases h1 with
        | sent _ q hq hp => exact ⟨q, hq, hp⟩
      · cases hs
    · simp only [System.step] at hs
      split at hs
      · obtain ⟨a', h1, -⟩ := Option.map_eq_some_iff.1 hs
        have h1 := stepR_of_step h1
        cases h1 with
        | sendFail _ q hq hp => exact ⟨q, hq, hp⟩
      · cases hs
  obtain ⟨m0, hm0, h0⟩ := L.sends r (max n N) fun m hm => by
    obtain ⟨m', hm', hfree⟩ := room_comes F hl hd hroom (c := q0.conn) (n := m) (fun k _ => hrec k (by omega))
    refine ⟨m', hm', ?_⟩
    obtain ⟨q, hq, hp⟩ := reg m' (by omega)
    obtain ⟨q', hq', -, hc, -⟩ := (Endpoint.exec_ext EL (show N ≤ m' by omega)).reqs r q0 hq0
    rw [hq] at hq'; cases hq'
    obtain ⟨a', ha', hout⟩ : ∃ a', Endpoint.step ca (σ m').a (.sent r) = some a' ∧ ∃ x, a'.out q.conn = (σ m').a.out q.conn ++ [x] := by
      simp only [Endpoint.step, hq, hp, if_true]
      exact ⟨_, rfl, _, by simp; rfl⟩
    obtain ⟨x, hx⟩ := hout
    refine ⟨_, { (σ m') with a := a' }, rfl, ?_⟩
    rw [hc] at hx
    simp [step, System.step, System.isLocal, ha', fits, target, hq, hc, hx, hfree]
  exact ⟨m0, by omega, h0⟩

/-- The same for the answer of a handler of the first endpoint. -/
theorem responds_left (F : FairBounded ca cb linked roomR roomL σ op) (hl : ∀ c, linked c = true) (hd : ∀ m, DistinctIds (σ m)) (hroom : RoomByLoad roomR) {t N : Nat}
    {k0 : Endpoint.Task CA} (hk0 : (σ N).a.tasks t = some k0) (hrec : ∀ m, N ≤ m → Receiving (σ m).b k0.conn) :
    WeaklyFair (System.step ca cb linked) σ op fun o => (∃ id, o = .left (.respond t id)) ∨ o = .left (.respondFail t) := by
  have L := F.left
  have EL := exec_left (exec_system F.run)
  intro n hn
  have resp : ∀ m, n ≤ m → ∃ k res, (σ m).a.tasks t = some k ∧ k.phase = .responding res := by
    intro m hm
    obtain ⟨o, s', ho, hs⟩ := hn m hm
    rcases ho with ⟨id, rfl⟩ | rfl
    · simp only [System.step] at hs
      split at hs
      · obtain ⟨a', h1, -⟩ := Option.map_eq_some_iff.1 hs
        have h1 := stepR_of_step h1
        cases h1 with
        | respond _ k res _ hk hp => exact ⟨k, res, hk, hp⟩
      · cases hs
    · simp only [System.step] at hs
      split at hs
      · obtain ⟨a', h1, -⟩ := Option.map_eq_some_iff.1 hs
        have h1 := stepR_of_step h1
        cases h1 with
        | respondFail _ k res hk hp => exact ⟨k, res, hk, hp⟩
      · cases hs
  obtain ⟨m0, hm0, h0⟩ := L.responds t (max n N) fun m hm => by
    obtain ⟨m', hm', hfree⟩ := room_comes F hl hd hroom (c := k0.conn) (n := m) (fun k _ => hrec k (by omega))
    refine ⟨m', hm', ?_⟩
    obtain ⟨k, res, hk, hp⟩ := resp m' (by omega)
    obtain ⟨k', hk', -, hc, -⟩ := (Endpoint.exec_ext EL (show N ≤ m' by omega)).tasks t k0 hk0
    rw [hk] at hk'; cases hk'
    obtain ⟨a', ha', hout⟩ : ∃ a', Endpoint.step ca (σ m').a (.respond t 0) = some a' ∧ ∃ x, a'.out k.conn = (σ m').a.out k.conn ++ [x] := by
      simp only [Endpoint.step, hk, hp]
      exact ⟨_, rfl, _, by simp; rfl⟩
    obtain ⟨x, hx⟩ := hout
    refine ⟨_, { (σ m') with a := a' }, ⟨0, rfl⟩, ?_⟩
    rw [hc] at hx
    simp [step, System.step, System.isLocal, ha', fits, target, hk, hc, hx, hfree]
  exact ⟨m0, by omega, h0⟩

/-- The first endpoint is scheduled fairly also as if there were no limit. -/
theorem side_left (F : FairBounded ca cb linked roomR roomL σ op) (hl : ∀ c, linked c = true) (hd : ∀ m, DistinctIds (σ m)) (hroom : RoomByLoad roomR)
    (hrec : ∀ m c, Receiving (σ m).b c) : FairSide (System.step ca cb linked) σ op .left := by
  have L := F.left
  refine ⟨fun c => quiet_weak ?_ (L.takes c), fun c => quiet_strong ?_ (L.delivers c), fun r => ?_, fun r => quiet_weak ?_ (L.reads r),
    fun r => quiet_weak ?_ (L.finishes r), fun t => quiet_weak ?_ (L.handlers t), fun t => ?_⟩
  · rintro o ⟨t, rfl⟩; exact ⟨_, rfl, fun _ => rfl⟩
  · rintro o ⟨t, rfl⟩; exact ⟨_, rfl, fun _ => rfl⟩
  · intro n hn
    cases hq : (σ n).a.reqs r with
    | some q => exact sends_left F hl hd hroom hq (fun m _ => hrec m _) n hn
    | none =>
      obtain ⟨o, s', rfl | rfl, hs⟩ := hn n (Nat.le_refl _) <;> simp [System.step, Endpoint.step, hq] at hs
  · rintro o rfl; exact ⟨_, rfl, fun _ => rfl⟩
  · rintro o rfl; exact ⟨_, rfl, fun _ => rfl⟩
  · rintro o (⟨t, rfl⟩ | rfl) <;> exact ⟨_, rfl, fun _ => rfl⟩
  · intro n hn
    cases hk : (σ n).a.tasks t with
    | some k => exact responds_left F hl hd hroom hk (fun m _ => hrec m _) n hn
    | none =>
      obtain ⟨o, s', ⟨id, rfl⟩ | rfl, hs⟩ := hn n (Nat.le_refl _) <;> simp [System.step, Endpoint.step, hk] at hs

/-- What the first endpoint does without writing is scheduled as if there were no limit. -/
theorem quiet_left {C : Endpoint.Op → Prop} (hC : ∀ o, C o → isLocal linked o = true ∧ ∀ s, target ca s o = none) {D : System.Op → Prop} (hD : ∀ o, D o ↔ ∃ p, C p ∧ o = .left p)
    (h : WeaklyFair (step ca cb linked roomR roomL) σ op D) : WeaklyFair (Endpoint.step ca) (fun n => (σ n).a) (leftOp σ op) C := by
  have : D = fun o => ∃ p, C p ∧ o = .left p := funext fun o => propext (hD o)
  subst this
  refine weak_left (fun o ho => (hC o ho).1) (quiet_weak ?_ h)
  rintro o ⟨p, hp, rfl⟩
  exact ⟨p, rfl, (hC p hp).2⟩

/-- A handler of the first endpoint returns or panics. -/
theorem handlers_left (F : FairBounded ca cb linked roomR roomL σ op) (t : Nat) :
    WeaklyFair (Endpoint.step ca) (fun n => (σ n).a) (leftOp σ op) fun o => (∃ res, o = .handlerDone t res) ∨ o = .handlerPanic t := by
  refine quiet_left ?_ ?_ (F.left.handlers t)
  · rintro o (⟨res, rfl⟩ | rfl) <;> exact ⟨rfl, fun _ => rfl⟩
  · intro o; constructor
    · rintro (⟨res, rfl⟩ | rfl)
      · exact ⟨_, .inl ⟨_, rfl⟩, rfl⟩
      · exact ⟨_, .inr rfl, rfl⟩
    · rintro ⟨_, ⟨res, rfl⟩ | rfl, rfl⟩
      · exact .inl ⟨_, rfl⟩
      · exact .inr rfl

theorem reads_left (F : FairBounded ca cb linked roomR roomL σ op) (r : Nat) :
    WeaklyFair (Endpoint.step ca) (fun n => (σ n).a) (leftOp σ op) fun o => o = .recv r := by
  refine quiet_left ?_ ?_ (F.left.reads r)
  · rintro o rfl; exact ⟨rfl, fun _ => rfl⟩
  · intro o; constructor
    · rintro rfl; exact ⟨_, rfl, rfl⟩
    · rintro ⟨_, rfl, rfl⟩; rfl

theorem finishes_left (F : FairBounded ca cb linked roomR roomL σ op) (r : Nat) :
    WeaklyFair (Endpoint.step ca) (fun n => (σ n).a) (leftOp σ op) fun o => o = .finish r := by
  refine quiet_left ?_ ?_ (F.left.finishes r)
  · rintro o rfl; exact ⟨rfl, fun _ => rfl⟩
  · intro o; constructor
    · rintro rfl; exact ⟨_, rfl, rfl⟩
    · rintro ⟨_, rfl, rfl⟩; rfl

/-- A request of the first endpoint does not stay unwritten, if its connection is read. -/
theorem written_left (F : FairBounded ca cb linked roomR roomL σ op) (hl : ∀ c, linked c = true) (hd : ∀ m, DistinctIds (σ m)) (hroom : RoomByLoad roomR) {r n : Nat} {q : Req}
    (hq : (σ n).a.reqs r = some q) (hrec : ∀ m, n ≤ m → Receiving (σ m).b q.conn) : ∃ m, n ≤ m ∧ ∃ q, (σ m).a.reqs r = some q ∧ q.phase ≠ .registered := by
  refine leaves_registered_of (exec_left (exec_system F.run)) (weak_left (cb := cb) (linked := linked) ?_ ?_) n ⟨q, hq⟩
  · rintro o (rfl | rfl) <;> rfl
  · intro k hk
    obtain ⟨m, hm, o, ho, hC⟩ := sends_left F hl hd hroom hq hrec k fun m hm => by
      obtain ⟨o, s', ⟨p, rfl | rfl, rfl⟩, h⟩ := hk m hm
      · exact ⟨_, s', .inl rfl, h⟩
      · exact ⟨_, s', .inr rfl, h⟩
    rcases hC with rfl | rfl
    · exact ⟨m, hm, _, ho, _, .inl rfl, rfl⟩
    · exact ⟨m, hm, _, ho, _, .inr rfl, rfl⟩

/-- A handler of the first endpoint comes to its end, if its connection is read. -/
theorem task_left (F : FairBounded ca cb linked roomR roomL σ op) (hl : ∀ c, linked c = true) (hd : ∀ m, DistinctIds (σ m)) (hroom : RoomByLoad roomR) {t n : Nat}
    {k : Endpoint.Task CA} (hk : (σ n).a.tasks t = some k) (hrec : ∀ m, n ≤ m → Receiving (σ m).b k.conn) :
    ∃ m, n ≤ m ∧ ∃ k', (σ m).a.tasks t = some k' ∧ k'.event = k.event ∧ k'.conn = k.conn ∧
      (¬ Healthy k' ∨ ∃ res a, IsAnswer ca.fmtDebug k.event res a ∧ emittedBy (σ m).a k.conn (.final t) = [a]) := by
  refine task_answered_of (exec_left (exec_system F.run)) (handlers_left F t) (weak_left (cb := cb) (linked := linked) ?_ ?_) hk
  · rintro o (⟨id, rfl⟩ | rfl) <;> rfl
  · intro j hj
    obtain ⟨m, hm, o, ho, hC⟩ := responds_left F hl hd hroom hk hrec j fun m hm => by
      obtain ⟨o, s', ⟨p, ⟨id, rfl⟩ | rfl, rfl⟩, h⟩ := hj m hm
      · exact ⟨_, s', .inl ⟨_, rfl⟩, h⟩
      · exact ⟨_, s', .inr rfl, h⟩
    rcases hC with ⟨id, rfl⟩ | rfl
    · exact ⟨m, hm, _, ho, _, .inl ⟨_, rfl⟩, rfl⟩
    · exact ⟨m, hm, _, ho, _, .inr rfl, rfl⟩

/-- A fair execution with limited capacity is a fair execution. -/
theorem fairSys (F : FairBounded ca cb linked roomR roomL σ op) (hl : ∀ c, linked c = true) (hd : ∀ m, DistinctIds (σ m)) (hR : RoomByLoad roomR)
    (hL : RoomByLoad roomL) (hra : ∀ m c, Receiving (σ m).a c) (hrb : ∀ m c, Receiving (σ m).b c) : FairSys ca cb linked σ op := by
  refine ⟨exec_system F.run, side_left F hl hd hR hrb, ?_, ?_, ?_⟩
  · have h := System.fairSide_swap (l := .left) (l' := .right) (by intro o p; cases o <;> simp [System.Op.swap])
      (side_left (fair_swap F) hl (fun m => (hd m).swap) hL hra)
    have hop : (fun n => ((op n).map System.Op.swap).map System.Op.swap) = op := by
      funext n
      cases op n <;> simp [System.Op.swap_swap]
    rw [hop] at h
    exact h
  · intro c k hk
    exact F.toRight c k fun m hm => ⟨(hk m hm).1, by
      obtain ⟨o, s', rfl, h⟩ := (hk m hm).2
      exact ⟨_, s', rfl, carry_step h⟩⟩
  · intro c k hk
    exact F.toLeft c k fun m hm => ⟨(hk m hm).1, by
      obtain ⟨o, s', rfl, h⟩ := (hk m hm).2
      exact ⟨_, s', rfl, carry_step' h⟩⟩

end
end Bromine.Bounded
