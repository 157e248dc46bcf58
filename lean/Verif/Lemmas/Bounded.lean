import Verif.Spec.Bounded
import Verif.Lemmas.Progress
/-
Helpers for C97.
-/
namespace Bromine.Bounded
open Bromine.Endpoint Bromine.System Spec Props

section
variable {CA CB : Type} {ca : Config CA} {cb : Config CB} {linked : Nat → Bool} {roomR roomL : Nat → List Event → Event → Bool}

theorem run_append {s : Sys CA CB} {x y : List System.Op} :
    run ca cb linked roomR roomL s (x ++ y) = (run ca cb linked roomR roomL s x).bind fun s => run ca cb linked roomR roomL s y := by
  induction x generalizing s with
  | nil => rfl
  | cons o a ih =>
    simp only [List.cons_append, run]
    cases step ca cb linked roomR roomL s o with
    | none => rfl
    | some s1 => exact ih

theorem step_system {s s' : Sys CA CB} {op : System.Op} (h : step ca cb linked roomR roomL s op = some s') : System.step ca cb linked s op = some s' := by
  simp only [step, Option.bind_eq_some_iff] at h
  obtain ⟨x, h1, h2⟩ := h
  have : x = s' := by
    cases op with
    | left o => simp only at h2; split at h2 <;> simp_all
    | right o => simp only at h2; split at h2 <;> simp_all
    | toRight c => simpa using h2
    | toLeft c => simpa using h2
  exact this ▸ h1

theorem run_system : ∀ {ops : List System.Op} {s s' : Sys CA CB}, run ca cb linked roomR roomL s ops = some s' → System.run ca cb linked s ops = some s'
  | [], _, _, h => h
  | op :: ops, s, s', h => by
    simp only [run, System.run, Option.bind_eq_some_iff] at h ⊢
    obtain ⟨x, h1, h2⟩ := h
    exact ⟨x, step_system h1, run_system h2⟩

theorem reachable_system {s : Sys CA CB} (h : Reachable ca cb linked roomR roomL s) : System.Reachable ca cb linked s := by
  obtain ⟨ops, h⟩ := h
  exact ⟨ops, run_system h⟩

/-- A step with more room. -/
theorem step_mono {roomR' roomL' : Nat → List Event → Event → Bool} (hR : ∀ c l e, roomR c l e = true → roomR' c l e = true)
    (hL : ∀ c l e, roomL c l e = true → roomL' c l e = true) {s s' : Sys CA CB} {op : System.Op} (h : step ca cb linked roomR roomL s op = some s') :
    step ca cb linked roomR' roomL' s op = some s' := by
  have key : ∀ {C D : Type} {cfg : Config C} {room room' : Nat → List Event → Event → Bool} {w w' : State C} {r : State D} {o : Endpoint.Op},
      (∀ c l e, room c l e = true → room' c l e = true) → fits cfg linked room w w' r o = true → fits cfg linked room' w w' r o = true := by
    intro C D cfg room room' w w' r o hr hf
    simp only [fits] at hf ⊢
    split
    · rfl
    · rename_i c hc
      simp only [hc, Bool.or_eq_true] at hf ⊢
      rcases hf with hf | hf
      · exact .inl hf
      · right
        split
        · rename_i x hx; rw [hx] at hf; exact hr _ _ _ hf
        · rfl
  simp only [step, Option.bind_eq_some_iff] at h ⊢
  obtain ⟨x, h1, h2⟩ := h
  refine ⟨x, h1, ?_⟩
  cases op with
  | left o =>
    simp only at h2 ⊢
    split at h2
    · rename_i hf; rw [if_pos (key hR hf)]; exact h2
    · cases h2
  | right o =>
    simp only at h2 ⊢
    split at h2
    · rename_i hf; rw [if_pos (key hL hf)]; exact h2
    · cases h2
  | toRight c => exact h2
  | toLeft c => exact h2

theorem run_mono {roomR' roomL' : Nat → List Event → Event → Bool} (hR : ∀ c l e, roomR c l e = true → roomR' c l e = true)
    (hL : ∀ c l e, roomL c l e = true → roomL' c l e = true) : ∀ {ops : List System.Op} {s s' : Sys CA CB}, run ca cb linked roomR roomL s ops = some s' →
    run ca cb linked roomR' roomL' s ops = some s'
  | [], _, _, h => h
  | op :: ops, s, s', h => by
    simp only [run, Option.bind_eq_some_iff] at h ⊢
    obtain ⟨x, h1, h2⟩ := h
    exact ⟨x, step_mono hR hL h1, run_mono hR hL h2⟩

theorem Reads.target {op : Endpoint.Op} (h : Reads op) (s : State CB) : target cb s op = none := by
  cases op <;> first | exact h.elim | rfl

theorem Reads.local {op : Endpoint.Op} (h : Reads op) : isLocal linked op = true := by
  cases op <;> first | exact h.elim | rfl

/-- Reading needs no room. -/
theorem lift : ∀ {ops : List Endpoint.Op} {s : Sys CA CB} {b' : State CB}, (∀ op ∈ ops, Reads op) → Endpoint.run cb s.b ops = some b' →
    run ca cb linked roomR roomL s (ops.map .right) = some { s with b := b' }
  | [], s, b', _, h => by cases h; rfl
  | op :: ops, s, b', hr, h => by
    simp only [Endpoint.run, Option.bind_eq_some_iff] at h
    obtain ⟨x, h1, h2⟩ := h
    have hop := hr op List.mem_cons_self
    have h3 : step ca cb linked roomR roomL s (.right op) = some { s with b := x } := by
      simp [step, System.step, Reads.local hop, h1, fits, Reads.target hop]
    simp only [List.map_cons, run, h3, Option.bind_some]
    exact lift (s := { s with b := x }) (fun o ho => hr o (List.mem_cons_of_mem _ ho)) h2

/-- Runs that only read. -/
def RFwd (cfg : Config CB) (s s' : State CB) : Prop := ∃ ops, (∀ op ∈ ops, Reads op) ∧ Endpoint.run cfg s ops = some s'

theorem RFwd.refl (s : State CB) : RFwd cb s s := ⟨[], by simp, rfl⟩

theorem RFwd.trans {x y z : State CB} (h : RFwd cb x y) (h' : RFwd cb y z) : RFwd cb x z := by
  obtain ⟨o, h1, h2⟩ := h
  obtain ⟨o', h3, h4⟩ := h'
  refine ⟨o ++ o', ?_, by rw [Endpoint.run_append, h2]; exact h4⟩
  intro op hop
  rcases List.mem_append.1 hop with h | h
  · exact h1 op h
  · exact h3 op h

theorem RFwd.one {s s' : State CB} {op : Endpoint.Op} (hf : Reads op) (h : Endpoint.step cb s op = some s') : RFwd cb s s' :=
  ⟨[op], by simpa using hf, by simp [Endpoint.run, h]⟩

theorem RFwd.keeps {s s' : State CB} (h : RFwd cb s s') (hre : Endpoint.Reachable cb s) : s'.created = s.created ∧ s'.arrived = s.arrived ∧ s'.out = s.out := by
  obtain ⟨o, h1, h2⟩ := h
  refine run_induction (P := fun x => x.created = s.created ∧ x.arrived = s.arrived ∧ x.out = s.out) hre h2 ⟨rfl, rfl, rfl⟩ ?_
  intro x op x' hm _ ih hs
  have hop := h1 op hm
  cases hs
  all_goals try exact hop.elim
  all_goals exact ih

theorem RFwd.reachable {s s' : State CB} (h : RFwd cb s s') (hre : Endpoint.Reachable cb s) : Endpoint.Reachable cb s' := by
  obtain ⟨o, _, h2⟩ := h
  exact hre.run h2

theorem RFwd.receiving {s s' : State CB} (h : RFwd cb s s') (hre : Endpoint.Reachable cb s) {c : Nat} (hl : Receiving s c) : Receiving s' c := by
  obtain ⟨o, h1, h2⟩ := h
  exact Fwd.receiving ⟨o, fun op ho => by have := h1 op ho; cases op <;> first | exact this.elim | trivial, h2⟩ hre hl

/-- The request that a receive loop has a reply for has been written. -/
theorem not_registered {s : Sys CA CB} (h : System.Reachable ca cb linked s) (hd : DistinctIds s) (hl : ∀ c, linked c = true) {c r : Nat} {e : Event}
    (hlo : s.b.loop c = .sending r e) {q : Req} (hq : s.b.reqs r = some q) : q.phase ≠ .registered := by
  intro hp
  have hre := reachable_right h
  obtain ⟨q', hq', h1, h2⟩ := (refInv hre).sending c r e hlo
  rw [hq] at hq'; cases hq'
  have he : e ∈ s.b.arrived c := by
    rw [arrInv hre, hlo]; simp [held]
  obtain ⟨y, hy, -, t, k, hk, hkc, hid, -, x, hx, hxe⟩ := System.reply_source (reachable_swap h) (hl c) he h1
  exact (unique hre hd.right).unsent r q hq hp c x hx (by rw [hxe, hid])

/-- A receive loop that holds an event can go on when the replies are read. -/
theorem unblock {s : State CB} (h : Endpoint.Reachable cb s) {c r : Nat} {e : Event} (hl : s.loop c = .sending r e)
    (hnr : ∀ q, s.reqs r = some q → q.phase ≠ .registered) : ∃ s', RFwd cb s s' ∧ s'.loop c = .idle ∧ s'.inbox c = s.inbox c := by
  have last : ∀ (s : State CB), Endpoint.Reachable cb s → s.loop c = .sending r e → ∀ q, s.reqs r = some q → (q.buf.length < 8 ∨ q.alive = false) →
      ∃ s', RFwd cb s s' ∧ s'.loop c = .idle ∧ s'.inbox c = s.inbox c := by
    intro s h hl q hq hb
    obtain ⟨t, s', h1, h2⟩ := C25_goes_on h hl hq hb
    refine ⟨s', RFwd.one (op := .deliver c t) trivial h1, h2, ?_⟩
    have hs := stepR_of_step h1
    cases hs <;> rfl
  obtain ⟨q, hq, _, _⟩ := (refInv h).sending c r e hl
  cases hp : q.phase with
  | finished how => exact last s h hl q hq (.inr (by simp [Req.alive, hp]))
  | registered => exact absurd hp (hnr q hq)
  | waiting =>
    by_cases hb : q.buf.length < 8
    · exact last s h hl q hq (.inl hb)
    · have hroom := (reqInv h).room r q hq
      cases hbuf : q.buf with
      | nil => rw [hbuf] at hb; simp at hb
      | cons e0 rest =>
        have hst : ∃ s1 q1, Endpoint.step cb s (.recv r) = some s1 ∧ s1.loop c = .sending r e ∧ s1.inbox c = s.inbox c ∧ s1.reqs r = some q1 ∧ q1.buf = rest := by
          simp only [Endpoint.step, hq, hp, if_true, hbuf]
          exact ⟨_, _, rfl, hl, rfl, by simp only [setReq, upd_apply, if_true]; rfl, rfl⟩
        obtain ⟨s1, q1, h1, h2, h3, h4, h5⟩ := hst
        obtain ⟨s2, g1, g2, g3⟩ := last s1 (h.step h1) h2 q1 h4 (.inl (by rw [h5]; rw [hbuf] at hroom; simp at hroom; omega))
        exact ⟨s2, (RFwd.one (op := .recv r) trivial h1).trans g1, g2, g3.trans h3⟩
  | closing l =>
    have hst : ∃ s1 q1, Endpoint.step cb s (.finish r) = some s1 ∧ s1.loop c = .sending r e ∧ s1.inbox c = s.inbox c ∧ s1.reqs r = some q1 ∧ q1.alive = false := by
      simp only [Endpoint.step, hq, hp]
      exact ⟨_, _, rfl, hl, rfl, by simp only [unlisten, setReq, upd_apply, if_true]; rfl, rfl⟩
    obtain ⟨s1, q1, h1, h2, h3, h4, h5⟩ := hst
    obtain ⟨s2, g1, g2, g3⟩ := last s1 (h.step h1) h2 q1 h4 (.inr h5)
    exact ⟨s2, (RFwd.one (op := .finish r) trivial h1).trans g1, g2, g3.trans h3⟩

/-- The second endpoint reads. -/
theorem reach_b {s : Sys CA CB} (h : System.Reachable ca cb linked s) {b' : State CB} (hf : RFwd cb s.b b') : System.Reachable ca cb linked { s with b := b' } := by
  obtain ⟨ops, h1, h2⟩ := hf
  have := run_system (lift (ca := ca) (linked := linked) (roomR := fun _ _ _ => true) (roomL := fun _ _ _ => true) h1 h2)
  obtain ⟨o, ho⟩ := h
  exact ⟨o ++ ops.map .right, Props.run_append ho this⟩

theorem to_idle {s : Sys CA CB} (h : System.Reachable ca cb linked s) (hd : DistinctIds s) (hl : ∀ c, linked c = true) {c : Nat} (hr : Receiving s.b c) :
    ∃ b', RFwd cb s.b b' ∧ b'.loop c = .idle ∧ b'.inbox c = s.b.inbox c := by
  cases hlo : s.b.loop c with
  | idle => exact ⟨s.b, .refl _, hlo, rfl⟩
  | sending r e => exact unblock (reachable_right h) hlo fun q hq => not_registered h hd hl hlo hq
  | ended l => exact absurd hlo (hr l)

/-- The receive loop of the second endpoint can deal with everything that has arrived, if replies are read. -/
theorem drain {c : Nat} : ∀ (n : Nat) {s : Sys CA CB}, System.Reachable ca cb linked s → DistinctIds s → (∀ c, linked c = true) → Receiving s.b c →
    (s.b.inbox c).length = n → ∃ b', RFwd cb s.b b' ∧ b'.inbox c = []
  | 0, s, _, _, _, _, hn => ⟨s.b, .refl _, List.length_eq_zero_iff.1 hn⟩
  | n + 1, s, h, hd, hl, hr, hn => by
    obtain ⟨b1, h1, h2, h3⟩ := to_idle h hd hl hr
    have hre1 := h1.reachable (reachable_right h)
    cases hi : s.b.inbox c with
    | nil => rw [hi] at hn; simp at hn
    | cons e rest =>
      rw [hi] at h3
      obtain ⟨t, b2, ht⟩ := C25_takes hre1 h2 h3
      have hf : RFwd cb b1 b2 := .one (op := .take c t) trivial ht
      have hrest : b2.inbox c = rest := by
        have hs := stepR_of_step ht
        cases hs with
        | takeListener _ _ e0 rest0 r id hl0 hi0 hid hr => rw [h3] at hi0; cases hi0; simp
        | takeDiscard _ _ e0 rest0 hl0 hi0 hn0 hty0 => rw [h3] at hi0; cases hi0; simp
        | takeHandler _ e0 rest0 cb t hl0 hi0 hn0 hty0 hcb ht => rw [h3] at hi0; cases hi0; simp
      have hf' := h1.trans hf
      have hk := hf'.keeps (reachable_right h)
      obtain ⟨b3, g1, g2⟩ := drain n (s := { s with b := b2 }) (reach_b h hf') (by simp only [DistinctIds, hk.1]; exact hd) hl
        (hf'.receiving (reachable_right h) hr) (by show (b2.inbox c).length = n; rw [hrest]; rw [hi] at hn; simpa using hn)
      exact ⟨b3, hf'.trans g1, g2⟩

/-- Everything that has been written arrives. -/
theorem carry {c : Nat} (hl : linked c = true) : ∀ (n : Nat) {s : Sys CA CB}, System.Reachable ca cb linked s → (s.a.out c).length = (s.b.arrived c).length + n →
    ∃ b', run ca cb linked roomR roomL s (List.replicate n (.toRight c)) = some { s with b := b' } ∧ (s.a.out c).length = (b'.arrived c).length ∧
      b'.loop = s.b.loop ∧ b'.created = s.b.created
  | 0, s, _, hn => ⟨s.b, rfl, by simpa using hn, rfl, rfl⟩
  | n + 1, s, h, hn => by
    have hx : ∃ x, (s.a.out c)[(s.b.arrived c).length]? = some x := ⟨_, List.getElem?_eq_getElem (by omega)⟩
    obtain ⟨x, hx⟩ := hx
    let b1 : State CB := { s.b with inbox := upd s.b.inbox c (s.b.inbox c ++ [x.event]), arrived := upd s.b.arrived c (s.b.arrived c ++ [x.event]) }
    have h1 : System.step ca cb linked s (.toRight c) = some { s with b := b1 } := by
      simp [System.step, hl, hx, Endpoint.step, b1]
    have h1' : step ca cb linked roomR roomL s (.toRight c) = some { s with b := b1 } := by simp [step, h1]
    have hre : System.Reachable ca cb linked { s with b := b1 } := by
      obtain ⟨o, ho⟩ := h
      exact ⟨o ++ [.toRight c], Props.run_append ho (by simp [System.run, h1])⟩
    obtain ⟨b', g1, g2, g3, g4⟩ := carry hl n (s := { s with b := b1 }) hre (by simp [b1]; omega)
    refine ⟨b', ?_, g2, g3, g4⟩
    simp only [List.replicate_succ, run, h1', Option.bind_some]
    exact g1

end
end Bromine.Bounded
