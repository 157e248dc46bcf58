import Verif.Props.System
import Verif.Spec.Progress
/-
What can still happen: helpers for C61.
-/
namespace Bromine.Endpoint
open Spec Props

variable {CB : Type} {cfg : Config CB}

/-- Forward steps that create no event. -/
def Quiet : Op → Prop
  | .take _ _ | .deliver _ _ | .sent _ | .recv _ | .finish _ | .handlerDone _ _ | .cleanup _ => True
  | _ => False

theorem Quiet.forward {op : Op} (h : Quiet op) : Forward op := by
  cases op <;> first | exact h.elim | trivial

/-- A run of such steps. -/
def Fwd (cfg : Config CB) (s s' : State CB) : Prop := ∃ ops, (∀ op ∈ ops, Quiet op) ∧ run cfg s ops = some s'

theorem Fwd.refl (s : State CB) : Fwd cfg s s := ⟨[], by simp, rfl⟩

theorem Fwd.trans {a b c : State CB} (h : Fwd cfg a b) (h' : Fwd cfg b c) : Fwd cfg a c := by
  obtain ⟨o, h1, h2⟩ := h
  obtain ⟨o', h3, h4⟩ := h'
  refine ⟨o ++ o', ?_, by rw [run_append, h2]; exact h4⟩
  intro op hop
  rcases List.mem_append.1 hop with h | h
  · exact h1 op h
  · exact h3 op h

theorem Fwd.one {s s' : State CB} {op : Op} (hf : Quiet op) (h : step cfg s op = some s') : Fwd cfg s s' :=
  ⟨[op], by simpa using hf, by simp [run, h]⟩

theorem Fwd.reachable {s s' : State CB} (h : Fwd cfg s s') (hre : Reachable cfg s) : Reachable cfg s' := by
  obtain ⟨o, _, h2⟩ := h
  exact hre.run h2

theorem Fwd.induct {P : State CB → Prop} {s s' : State CB} (h : Fwd cfg s s') (hre : Reachable cfg s) (h0 : P s)
    (hstep : ∀ s op s', Quiet op → Reachable cfg s → P s → StepR cfg s op s' → P s') : P s' := by
  obtain ⟨o, h1, h2⟩ := h
  exact run_induction hre h2 h0 fun s op s' hm => hstep s op s' (h1 op hm)

theorem Fwd.receiving {s s' : State CB} (h : Fwd cfg s s') (hre : Reachable cfg s) {c : Nat} (hl : Receiving s c) : Receiving s' c := by
  refine h.induct (P := fun s => Receiving s c) hre hl ?_
  intro s op s' hf _ ih hs lost hlo
  have ih := ih lost
  cases hs
  all_goals try exact hf
  all_goals try exact ih hlo
  all_goals simp only [upd_apply] at hlo
  all_goals grind

/-- A request on its way: it has not been given up. -/
def OnWay (q0 : Req) (q : Req) : Prop :=
  q.event = q0.event ∧ q.conn = q0.conn ∧ q.kind = q0.kind ∧
  (q.phase = .registered ∨ q.phase = .waiting ∨ (∃ e, q.phase = .closing (some e)) ∨ q.phase = .finished .replied)

theorem Fwd.onWay {s s' : State CB} (h : Fwd cfg s s') (hre : Reachable cfg s) {r : Nat} {q0 : Req}
    (hq : ∃ q, s.reqs r = some q ∧ OnWay q0 q) : ∃ q, s'.reqs r = some q ∧ OnWay q0 q := by
  refine h.induct (P := fun s => ∃ q, s.reqs r = some q ∧ OnWay q0 q) hre hq ?_
  rintro s op s' hf _ ⟨q, hq, e1, e2, e3, ih⟩ hs
  cases hs
  all_goals try exact hf.elim
  all_goals try exact ⟨q, hq, e1, e2, e3, ih⟩
  all_goals simp only [upd_apply, OnWay]
  all_goals grind

/-- A task that has not failed. -/
def TaskFine (k : Task CB) : Prop :=
  k.phase = .running ∨ (∃ res, k.phase = .responding res) ∨ (∃ res, k.phase = .cleaning res true) ∨ ∃ res, k.phase = .done res true

theorem Fwd.taskFine {s s' : State CB} (h : Fwd cfg s s') (hre : Reachable cfg s) {P : Nat → Event → Prop}
    (hk : ∀ t k, s.tasks t = some k → P k.conn k.event → TaskFine k) : ∀ t k, s'.tasks t = some k → P k.conn k.event → TaskFine k := by
  refine h.induct (P := fun s => ∀ t k, s.tasks t = some k → P k.conn k.event → TaskFine k) hre hk ?_
  intro s op s' hf _ ih hs t k hk hp
  cases hs with
  | cleanup t0 k0 res sent hk0 hp0 =>
    rcases upd_some hk with ⟨rfl, rfl⟩ | ⟨_, hk⟩
    · have := ih t k0 hk0 hp
      simp only [TaskFine, hp0] at this ⊢
      simp at this ⊢
      exact this
    · exact ih t k hk hp
  | _ =>
    first
    | exact hf.elim
    | exact ih t k hk hp
    | (rcases upd_some hk with ⟨rfl, rfl⟩ | ⟨_, hk⟩
       · simp [TaskFine]
       · exact ih t k hk hp)

/-- What is written stays written. -/
theorem Fwd.ext {s s' : State CB} (h : Fwd cfg s s') (hre : Reachable cfg s) : Ext s s' := by
  obtain ⟨o, _, h2⟩ := h
  exact run_ext hre h2

theorem Fwd.created {s s' : State CB} (h : Fwd cfg s s') (hre : Reachable cfg s) : s'.created = s.created := by
  refine h.induct (P := fun x => x.created = s.created) hre rfl ?_
  intro x op x' hf _ ih hs
  cases hs
  all_goals try exact hf.elim
  all_goals exact ih

/-- A receive loop that holds an event can go on, if necessary after the request that it waits for has gone on. -/
theorem unblock {s : State CB} (h : Reachable cfg s) {c r : Nat} {e : Event} (hl : s.loop c = .sending r e) :
    ∃ s', Fwd cfg s s' ∧ s'.loop c = .idle ∧ s'.inbox c = s.inbox c := by
  -- the last step
  have last : ∀ (s : State CB), Reachable cfg s → s.loop c = .sending r e → ∀ q, s.reqs r = some q → (q.buf.length < 8 ∨ q.alive = false) →
      ∃ s', Fwd cfg s s' ∧ s'.loop c = .idle ∧ s'.inbox c = s.inbox c := by
    intro s h hl q hq hb
    obtain ⟨t, s', h1, h2⟩ := C25_goes_on h hl hq hb
    refine ⟨s', Fwd.one (op := .deliver c t) trivial h1, h2, ?_⟩
    have hs := stepR_of_step h1
    cases hs <;> rfl
  -- a waiting request
  have waiting : ∀ (s : State CB), Reachable cfg s → s.loop c = .sending r e → ∀ q, s.reqs r = some q → q.phase = .waiting →
      ∃ s', Fwd cfg s s' ∧ s'.loop c = .idle ∧ s'.inbox c = s.inbox c := by
    intro s h hl q hq hp
    by_cases hb : q.buf.length < 8
    · exact last s h hl q hq (.inl hb)
    · have hroom := (reqInv h).room r q hq
      cases hbuf : q.buf with
      | nil => rw [hbuf] at hb; simp at hb
      | cons e0 rest =>
        have hst : ∃ s1 q1, step cfg s (.recv r) = some s1 ∧ s1.loop c = .sending r e ∧ s1.inbox c = s.inbox c ∧ s1.reqs r = some q1 ∧ q1.buf = rest := by
          simp only [step, hq, hp, if_true, hbuf]
          exact ⟨_, _, rfl, hl, rfl, by simp only [setReq, upd_apply, if_true]; rfl, rfl⟩
        obtain ⟨s1, q1, h1, h2, h3, h4, h5⟩ := hst
        obtain ⟨s2, g1, g2, g3⟩ := last s1 (h.step h1) h2 q1 h4 (.inl (by rw [h5]; rw [hbuf] at hroom; simp at hroom; omega))
        exact ⟨s2, (Fwd.one (op := .recv r) trivial h1).trans g1, g2, g3.trans h3⟩
  obtain ⟨q, hq, _, _⟩ := (refInv h).sending c r e hl
  cases hp : q.phase with
  | finished how => exact last s h hl q hq (.inr (by simp [Req.alive, hp]))
  | waiting => exact waiting s h hl q hq hp
  | registered =>
    have hst : ∃ s1 q1, step cfg s (.sent r) = some s1 ∧ s1.loop c = .sending r e ∧ s1.inbox c = s.inbox c ∧ s1.reqs r = some q1 ∧ q1.phase = .waiting := by
      simp only [step, hq, hp, if_true]
      exact ⟨_, _, rfl, hl, rfl, by simp only [setReq, upd_apply, if_true]; rfl, rfl⟩
    obtain ⟨s1, q1, h1, h2, h3, h4, h5⟩ := hst
    obtain ⟨s2, g1, g2, g3⟩ := waiting s1 (h.step h1) h2 q1 h4 h5
    exact ⟨s2, (Fwd.one (op := .sent r) trivial h1).trans g1, g2, g3.trans h3⟩
  | closing l =>
    have hst : ∃ s1 q1, step cfg s (.finish r) = some s1 ∧ s1.loop c = .sending r e ∧ s1.inbox c = s.inbox c ∧ s1.reqs r = some q1 ∧ q1.alive = false := by
      simp only [step, hq, hp]
      exact ⟨_, _, rfl, hl, rfl, by simp only [unlisten, setReq, upd_apply, if_true]; rfl, rfl⟩
    obtain ⟨s1, q1, h1, h2, h3, h4, h5⟩ := hst
    obtain ⟨s2, g1, g2, g3⟩ := last s1 (h.step h1) h2 q1 h4 (.inr h5)
    exact ⟨s2, (Fwd.one (op := .finish r) trivial h1).trans g1, g2, g3.trans h3⟩

/-- A receive loop can become idle without taking a further event. -/
theorem to_idle {s : State CB} (h : Reachable cfg s) {c : Nat} (hl : Receiving s c) :
    ∃ s', Fwd cfg s s' ∧ s'.loop c = .idle ∧ s'.inbox c = s.inbox c := by
  cases hlo : s.loop c with
  | idle => exact ⟨s, .refl s, hlo, rfl⟩
  | sending r e => exact unblock h hlo
  | ended l => exact absurd hlo (hl l)

/-- A receive loop can deal with everything that has arrived. -/
theorem drain {s : State CB} (h : Reachable cfg s) {c : Nat} (hl : Receiving s c) :
    ∃ s', Fwd cfg s s' ∧ s'.loop c = .idle ∧ s'.inbox c = [] := by
  obtain ⟨s1, h1, h2, h3⟩ := to_idle h hl
  generalize hn : (s1.inbox c).length = n
  have hre1 := h1.reachable h
  have : ∀ n (s1 : State CB), Reachable cfg s1 → s1.loop c = .idle → (s1.inbox c).length = n → ∃ s', Fwd cfg s1 s' ∧ s'.loop c = .idle ∧ s'.inbox c = [] := by
    intro n
    induction n with
    | zero => intro s1 hre hl hn; exact ⟨s1, .refl s1, hl, List.length_eq_zero_iff.1 hn⟩
    | succ n ih =>
      intro s1 hre hlo hn
      cases hi : s1.inbox c with
      | nil => rw [hi] at hn; simp at hn
      | cons e rest =>
        obtain ⟨t, s2, ht⟩ := C25_takes hre hlo hi
        have hf : Fwd cfg s1 s2 := .one (op := .take c t) trivial ht
        have hrest : s2.inbox c = rest := by
          have hs := stepR_of_step ht
          cases hs with
          | takeListener _ _ e0 rest0 r id hl0 hi0 hid hr => rw [hi] at hi0; cases hi0; simp
          | takeDiscard _ _ e0 rest0 hl0 hi0 hn0 hty0 => rw [hi] at hi0; cases hi0; simp
          | takeHandler _ e0 rest0 cb t hl0 hi0 hn0 hty0 hcb ht => rw [hi] at hi0; cases hi0; simp
        have hrec : Receiving s2 c := hf.receiving hre (by intro l hh; rw [hlo] at hh; cases hh)
        obtain ⟨s3, g1, g2, g3⟩ := to_idle (hf.reachable hre) hrec
        obtain ⟨s4, k1, k2, k3⟩ := ih s3 (g1.reachable (hf.reachable hre)) g2 (by rw [g3, hrest]; rw [hi] at hn; simpa using hn)
        exact ⟨s4, hf.trans (g1.trans k1), k2, k3⟩
  obtain ⟨s2, g1, g2, g3⟩ := this n s1 hre1 h2 hn
  exact ⟨s2, h1.trans g1, g2, g3⟩

/-- A waiting request has been written. -/
theorem waiting_written {s : State CB} (h : Reachable cfg s) : ∀ r q, s.reqs r = some q → q.phase = .waiting → ∃ x ∈ s.out q.conn, x.event = q.event := by
  refine reachable_induction (P := fun s => ∀ r q, s.reqs r = some q → q.phase = .waiting → ∃ x ∈ s.out q.conn, x.event = q.event) (by simp) ?_ h
  intro s op s' _ ih hs r q hq hp
  have hold := ih r
  have hout : ∀ c x, x ∈ s.out c → x ∈ s'.out c := fun c x hx => (hs.ext.out c).subset hx
  have lift : ∀ q, s.reqs r = some q → q.phase = .waiting → ∃ x ∈ s'.out q.conn, x.event = q.event := by
    intro q hq hp
    obtain ⟨x, h1, h2⟩ := hold q hq hp
    exact ⟨x, hout _ _ h1, h2⟩
  cases hs with
  | sent r0 q0 hq0 hp0 =>
    rcases upd_some hq with ⟨rfl, rfl⟩ | ⟨_, hq⟩
    · exact ⟨_, by simp only [upd_apply, if_true]; exact List.mem_append_right _ (List.mem_singleton.2 rfl), rfl⟩
    · exact lift q hq hp
  | chanClosed r0 q0 hq0 hp0 hb hl hcl ph hph =>
    rcases upd_some hq with ⟨rfl, rfl⟩ | ⟨_, hq⟩
    · exact lift q0 hq0 hp0
    · exact lift q hq hp
  | _ =>
    first
    | exact lift q hq hp
    | (rcases upd_some hq with ⟨rfl, rfl⟩ | ⟨_, hq⟩
       · first
         | (have hh := lift _ (by assumption) (by assumption); exact hh)
         | simp at hp
       · exact lift q hq hp)

/-- Every handler can return. -/
theorem some_result (k : Task CB) : ∃ res, resultPossible cfg k res = true := by
  cases hcb : k.cb with
  | none => exact ⟨.ok [], by simp [resultPossible, hcb]⟩
  | some f =>
    by_cases hd : cfg.isDefaultError f
    · have : (∃ d, k.event.payload errorPayload = .ok d) ∨ ∃ x, k.event.payload errorPayload = .err x := by
        have re : ∀ n r, (∃ v, readExact n r = .ok v) ∨ ∃ x, readExact n r = .err x := by
          intro n r; unfold readExact; split
          · exact .inl ⟨_, rfl⟩
          · exact .inr ⟨_, rfl⟩
        simp only [Event.payload, errorPayload, ErrorEventData.fromPayload, readU16, readU32]
        rcases re 2 k.event.data with ⟨v, h⟩ | ⟨x, h⟩
        · simp only [h, bind, Outcome.bind, pure]
          rcases re 4 v.2 with ⟨v2, h2⟩ | ⟨x, h2⟩
          · simp only [h2]
            rcases re (UInt32.ofNat (beVal v2.1)).toNat v2.2 with ⟨v3, h3⟩ | ⟨x, h3⟩
            · simp only [h3]
              cases fromUtf8 v3.1
              · exact .inr ⟨_, rfl⟩
              · exact .inl ⟨_, rfl⟩
            · simp only [h3]; exact .inr ⟨_, rfl⟩
          · simp only [h2]; exact .inr ⟨_, rfl⟩
        · simp only [h, bind, Outcome.bind]; exact .inr ⟨_, rfl⟩
      rcases this with ⟨d, hd'⟩ | ⟨x, hx⟩
      · exact ⟨.ok [], by simp [resultPossible, hcb, hd, hd']⟩
      · exact ⟨.error x, by simp [resultPossible, hcb, hd, hx]⟩
    · exact ⟨.ok [], by simp [resultPossible, hcb, hd]⟩

end Bromine.Endpoint
