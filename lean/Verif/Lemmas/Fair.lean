import Verif.Props.Progress
import Verif.Spec.Fair
/-
What must happen in fair executions: helpers for C69 and C70.
-/
namespace Bromine.Endpoint
open Spec Props

variable {CB : Type} {cfg : Config CB} {σ : Nat → State CB} {op : Nat → Option Op}

theorem exec_step (E : Execution (step cfg) {} σ op) (n : Nat) : σ (n + 1) = σ n ∨ ∃ o, op n = some o ∧ step cfg (σ n) o = some (σ (n + 1)) := by
  have := E.next n
  cases h : op n with
  | none => rw [h] at this; exact .inl this
  | some o => rw [h] at this; exact .inr ⟨o, rfl, this⟩

theorem exec_reach (E : Execution (step cfg) {} σ op) (n : Nat) : Reachable cfg (σ n) := by
  induction n with
  | zero => rw [E.start]; exact ⟨[], rfl⟩
  | succ n ih =>
    rcases exec_step E n with h | ⟨o, _, h⟩
    · rw [h]; exact ih
    · exact ih.step h

theorem exec_ext (E : Execution (step cfg) {} σ op) {n m : Nat} (h : n ≤ m) : Ext (σ n) (σ m) := by
  induction h with
  | refl => exact .refl _
  | @step m _ ih =>
    rcases exec_step E m with h | ⟨o, _, h⟩
    · rw [h]; exact ih
    · exact ih.trans (stepR_of_step h).ext

/-- A step that is taken. -/
theorem exec_taken (E : Execution (step cfg) {} σ op) {n : Nat} {o : Op} (h : op n = some o) : StepR cfg (σ n) o (σ (n + 1)) := by
  have := E.next n
  rw [h] at this
  exact stepR_of_step this

theorem handledOn_prefix {s s' : State CB} (h : Ext s s') (c : Nat) : handledOn s c <+: handledOn s' c := by
  obtain ⟨l, hl⟩ := h.processed
  exact ⟨_, by rw [handledOn, handledOn, ← hl, List.filter_append, List.map_append]⟩

/-- Induction along an execution for what every step keeps. -/
theorem exec_keeps (E : Execution (step cfg) {} σ op) {P : State CB → Prop} {n : Nat} (h0 : P (σ n))
    (hs : ∀ m o, n ≤ m → P (σ m) → StepR cfg (σ m) o (σ (m + 1)) → P (σ (m + 1))) {m : Nat} (h : n ≤ m) : P (σ m) := by
  induction h with
  | refl => exact h0
  | @step m hm ih =>
    rcases exec_step E m with h | ⟨o, _, h⟩
    · rw [h]; exact ih
    · exact hs m o hm ih (stepR_of_step h)

/-- A receive loop that holds an event keeps it until it deals with it. -/
theorem sending_step {s s' : State CB} {o : Op} (hs : StepR cfg s o s') {c r : Nat} {e : Event} (hl : s.loop c = .sending r e)
    (hrec : Receiving s' c) : s'.loop c = .sending r e ∨ ((∃ t, o = .deliver c t) ∧ handledOn s' c = handledOn s c ++ [e] ∧ s'.loop c = .idle) := by
  cases hs with
  | deliver c0 t r0 e0 q hl0 hq ha hb =>
    by_cases hc : c = c0
    · subst hc; rw [hl] at hl0; cases hl0
      exact .inr ⟨⟨t, rfl⟩, by simp [handledOn], by simp⟩
    · left; simpa [hc] using hl
  | deliverDead c0 r0 e0 q t hl0 hq ha ht =>
    by_cases hc : c = c0
    · subst hc; rw [hl] at hl0; cases hl0
      exact .inr ⟨⟨t, rfl⟩, by simp [handledOn], by simp⟩
    · left; simpa [hc] using hl
  | abortIdle c0 hl0 _ =>
    by_cases hc : c = c0
    · subst hc; rw [hl] at hl0; cases hl0
    · left; simpa [hc] using hl
  | abortSending c0 r0 e0 hl0 _ =>
    by_cases hc : c = c0
    · subst hc; exact absurd (by simp) (hrec (some e0))
    · left; simpa [hc] using hl
  | readEnd c0 hl0 _ =>
    by_cases hc : c = c0
    · subst hc; rw [hl] at hl0; cases hl0
    · left; simpa [hc] using hl
  | takeListener c0 t e0 rest r0 id hl0 _ _ _ =>
    by_cases hc : c = c0
    · subst hc; rw [hl] at hl0; cases hl0
    · left; simpa [hc] using hl
  | _ => exact .inl hl

/-- A loop that takes an event has dealt with it or holds it. -/
theorem take_step {s s' : State CB} {c t : Nat} (hs : StepR cfg s (.take c t) s') :
    (∃ r e, s'.loop c = .sending r e) ∨ (handledOn s' c).length = (handledOn s c).length + 1 := by
  cases hs with
  | takeListener _ _ e rest r id => exact .inl ⟨r, e, by simp⟩
  | takeDiscard _ _ e rest => right; simp [handledOn]
  | takeHandler _ e rest cb _ => right; simp [handledOn]

theorem can {s : State CB} {o : Op} {C : Op → Prop} (hC : C o) (h : ∃ s', step cfg s o = some s') : Possible (step cfg) s C := by
  obtain ⟨s', h⟩ := h
  exact ⟨o, s', hC, h⟩

/-- The channel of a request does not stay full for ever while somebody waits for it, once the request has been written. -/
theorem room_again_of (E : Execution (step cfg) {} σ op) (reads : ∀ r, WeaklyFair (step cfg) σ op fun o => o = .recv r)
    (finishes : ∀ r, WeaklyFair (step cfg) σ op fun o => o = .finish r) {r : Nat} (n : Nat) (h1 : ∃ m, n ≤ m ∧ ∃ q, (σ m).reqs r = some q ∧ q.phase ≠ .registered)
    (hq : ∃ q, (σ n).reqs r = some q) :
    ∃ m, n ≤ m ∧ ∃ q, (σ m).reqs r = some q ∧ (q.buf.length < 8 ∨ q.alive = false) := by
  apply Classical.byContradiction
  intro hno
  have full : ∀ m, n ≤ m → ∃ q, (σ m).reqs r = some q ∧ ¬ q.buf.length < 8 ∧ q.alive = true := by
    intro m hm
    obtain ⟨q0, hq0⟩ := hq
    obtain ⟨q, hq, _⟩ := (exec_ext E hm).reqs r q0 hq0
    refine ⟨q, hq, fun hb => hno ⟨m, hm, q, hq, .inl hb⟩, ?_⟩
    cases ha : q.alive with
    | true => rfl
    | false => exact absurd ⟨m, hm, q, hq, .inr ha⟩ hno
  obtain ⟨m1, hm1, q1, hq1, hp1⟩ := h1
  have notreg : ∀ m, m1 ≤ m → ∃ q, (σ m).reqs r = some q ∧ q.phase ≠ .registered := by
    intro m hm
    refine exec_keeps E (P := fun s => ∃ q, s.reqs r = some q ∧ q.phase ≠ .registered) ⟨q1, hq1, hp1⟩ ?_ hm
    rintro m o _ ⟨q, hq, hp⟩ hs
    generalize σ (m + 1) = s' at *
    cases hs
    all_goals try exact ⟨q, hq, hp⟩
    all_goals simp only [upd_apply]
    all_goals grind
  -- it does not wait for ever
  have h2 : ∃ m, m1 ≤ m ∧ ∃ q l, (σ m).reqs r = some q ∧ q.phase = .closing l := by
    apply Classical.byContradiction
    intro hno2
    have wait : ∀ m, m1 ≤ m → ∃ q, (σ m).reqs r = some q ∧ q.phase = .waiting := by
      intro m hm
      obtain ⟨q, hq, _, ha⟩ := full m (by omega)
      obtain ⟨q', hq', hp⟩ := notreg m hm
      rw [hq] at hq'; cases hq'
      refine ⟨q, hq, ?_⟩
      cases hph : q.phase with
      | registered => exact absurd hph hp
      | waiting => rfl
      | closing l => exact absurd ⟨m, hm, q, l, hq, hph⟩ hno2
      | finished how => simp [Req.alive, hph] at ha
    obtain ⟨m, hm, o, ho, rfl⟩ := reads r m1 (fun m hm => by
      obtain ⟨q, hq, hp⟩ := wait m hm
      obtain ⟨q', hq', hb, _⟩ := full m (by omega)
      rw [hq] at hq'; cases hq'
      cases hbuf : q.buf with
      | nil => rw [hbuf] at hb; simp at hb
      | cons e rest => exact can (o := .recv r) rfl (by simp only [step, hq, hp, hbuf, if_true]; exact ⟨_, rfl⟩))
    obtain ⟨q, hq, hb, _⟩ := full m (by omega)
    obtain ⟨q', hq', hb', _⟩ := full (m + 1) (by omega)
    have hroom := (reqInv (exec_reach E m)).room r q hq
    have hs := exec_taken E ho
    generalize σ (m + 1) = s' at *
    cases hs
    all_goals simp at hq'
    all_goals subst hq'
    all_goals simp_all
    all_goals omega
  obtain ⟨m2, hm2, q2, l2, hq2, hp2⟩ := h2
  -- it does not stay in its last step
  have clos : ∀ m, m2 ≤ m → ∃ q l, (σ m).reqs r = some q ∧ q.phase = .closing l := by
    intro m hm
    have : ∃ q, (σ m).reqs r = some q ∧ ((∃ l, q.phase = .closing l) ∨ ∃ h, q.phase = .finished h) := by
      refine exec_keeps E (P := fun s => ∃ q, s.reqs r = some q ∧ ((∃ l, q.phase = .closing l) ∨ ∃ h, q.phase = .finished h)) ⟨q2, hq2, .inl ⟨l2, hp2⟩⟩ ?_ hm
      rintro m o _ ⟨q, hq, hp⟩ hs
      generalize σ (m + 1) = s' at *
      cases hs
      all_goals try exact ⟨q, hq, hp⟩
      all_goals simp only [upd_apply]
      all_goals grind
    obtain ⟨q, hq, ⟨l, hp⟩ | ⟨h, hp⟩⟩ := this
    · exact ⟨q, l, hq, hp⟩
    · obtain ⟨q', hq', _, ha⟩ := full m (by omega)
      rw [hq] at hq'; cases hq'
      simp [Req.alive, hp] at ha
  obtain ⟨m, hm, o, ho, rfl⟩ := finishes r m2 (fun m hm => by
    obtain ⟨q, l, hq, hp⟩ := clos m hm
    exact can (o := .finish r) rfl (by simp only [step, hq, hp]; exact ⟨_, rfl⟩))
  obtain ⟨q', l, hq', hp'⟩ := clos (m + 1) (by omega)
  have hs := exec_taken E ho
  generalize σ (m + 1) = s' at *
  cases hs; simp at hq'; subst hq'; cases hp'

/-- The channel of a request does not stay full for ever while somebody waits for it. -/
theorem room_again (F : FairRun cfg σ op) {r : Nat} (n : Nat) (hq : ∃ q, (σ n).reqs r = some q) :
    ∃ m, n ≤ m ∧ ∃ q, (σ m).reqs r = some q ∧ (q.buf.length < 8 ∨ q.alive = false) := by
  apply Classical.byContradiction
  intro hno
  have full : ∀ m, n ≤ m → ∃ q, (σ m).reqs r = some q ∧ ¬ q.buf.length < 8 ∧ q.alive = true := by
    intro m hm
    obtain ⟨q0, hq0⟩ := hq
    obtain ⟨q, hq, _⟩ := (exec_ext F.run hm).reqs r q0 hq0
    refine ⟨q, hq, fun hb => hno ⟨m, hm, q, hq, .inl hb⟩, ?_⟩
    cases ha : q.alive with
    | true => rfl
    | false => exact absurd ⟨m, hm, q, hq, .inr ha⟩ hno
  -- it does not stay unwritten
  have h1 : ∃ m, n ≤ m ∧ ∃ q, (σ m).reqs r = some q ∧ q.phase ≠ .registered := by
    apply Classical.byContradiction
    intro hno1
    have reg : ∀ m, n ≤ m → ∃ q, (σ m).reqs r = some q ∧ q.phase = .registered := by
      intro m hm
      obtain ⟨q, hq, _⟩ := full m hm
      exact ⟨q, hq, Classical.byContradiction fun hp => hno1 ⟨m, hm, q, hq, hp⟩⟩
    obtain ⟨m, hm, o, ho, hC⟩ := F.fair.sends r n (fun m hm => by
      obtain ⟨q, hq, hp⟩ := reg m hm
      exact can (o := .sent r) (.inl rfl) (by simp only [step, hq, hp, if_true]; exact ⟨_, rfl⟩))
    obtain ⟨q', hq', hp'⟩ := reg (m + 1) (by omega)
    rcases hC with rfl | rfl
    · have hs := exec_taken F.run ho
      generalize σ (m + 1) = s' at *
      cases hs; simp at hq'; subst hq'; cases hp'
    · have hs := exec_taken F.run ho
      generalize σ (m + 1) = s' at *
      cases hs; simp at hq'; subst hq'; cases hp'
  exact hno (room_again_of F.run F.fair.reads F.fair.finishes n h1 hq)

/-- A receive loop deals with the next event that has arrived, if channels do not stay full. -/
theorem next_handled_of (E : Execution (step cfg) {} σ op) (takes : ∀ c, WeaklyFair (step cfg) σ op fun o => ∃ t, o = .take c t)
    (delivers : ∀ c, StronglyFair (step cfg) σ op fun o => ∃ t, o = .deliver c t) {c : Nat} {n : Nat}
    (hroom : ∀ m r e, n ≤ m → (σ m).loop c = .sending r e → ∃ m', m ≤ m' ∧ ∃ q, (σ m').reqs r = some q ∧ (q.buf.length < 8 ∨ q.alive = false))
    (hrec : ∀ m, n ≤ m → Receiving (σ m) c)
    (h : (handledOn (σ n) c).length < ((σ n).arrived c).length) : ∃ m, n ≤ m ∧ (handledOn (σ n) c).length < (handledOn (σ m) c).length := by
  apply Classical.byContradiction
  intro hno
  have same : ∀ m, n ≤ m → (handledOn (σ m) c).length = (handledOn (σ n) c).length := by
    intro m hm
    have h1 := (handledOn_prefix (exec_ext E hm) c).length_le
    have h2 : ¬ (handledOn (σ n) c).length < (handledOn (σ m) c).length := fun h => hno ⟨m, hm, h⟩
    omega
  have more : ∀ m, n ≤ m → (handledOn (σ n) c).length < ((σ m).arrived c).length := by
    intro m hm
    have := ((exec_ext E hm).arrived c).length_le
    omega
  -- it holds an event at some time
  have h1 : ∃ m, n ≤ m ∧ ∃ r e, (σ m).loop c = .sending r e := by
    apply Classical.byContradiction
    intro hno1
    have idle : ∀ m, n ≤ m → (σ m).loop c = .idle := by
      intro m hm
      cases hl : (σ m).loop c with
      | idle => rfl
      | sending r e => exact absurd ⟨m, hm, r, e, hl⟩ hno1
      | ended l => exact absurd hl (hrec m hm l)
    obtain ⟨m, hm, o, ho, t, rfl⟩ := takes c n (fun m hm => by
      have harr := arrInv (exec_reach E m) c
      have hlen := more m hm
      have := same m hm
      rw [harr, idle m hm] at hlen
      cases hi : (σ m).inbox c with
      | nil => rw [hi] at hlen; simp [held] at hlen; omega
      | cons e rest =>
        obtain ⟨t, s', hs⟩ := C25_takes (exec_reach E m) (idle m hm) hi
        exact ⟨_, s', ⟨t, rfl⟩, hs⟩)
    rcases take_step (exec_taken E ho) with ⟨r, e, h⟩ | h
    · exact hno1 ⟨m + 1, by omega, r, e, h⟩
    · have := same m hm; have := same (m + 1) (by omega); omega
  obtain ⟨m1, hm1, r, e, hl⟩ := h1
  have send : ∀ m, m1 ≤ m → (σ m).loop c = .sending r e := by
    intro m hm
    refine exec_keeps E (P := fun s => s.loop c = .sending r e) hl ?_ hm
    intro m o hm' hl hs
    rcases sending_step hs hl (hrec _ (by omega)) with h | ⟨_, h, _⟩
    · exact h
    · have h1 := same m (by omega)
      have h2 := same (m + 1) (by omega)
      rw [h] at h2
      simp at h2; omega
  obtain ⟨m, hm, o, ho, t, rfl⟩ := delivers c m1 (fun m hm => by
    obtain ⟨q, hq, _⟩ := (refInv (exec_reach E m)).sending c r e (send m hm)
    obtain ⟨m', hm', q', hq', hb⟩ := hroom m r e (by omega) (send m hm)
    obtain ⟨t, s', hs, _⟩ := C25_goes_on (exec_reach E m') (send m' (by omega)) hq' hb
    exact ⟨m', hm', _, s', ⟨t, rfl⟩, hs⟩)
  have hs := exec_taken E ho
  have h2 := send (m + 1) (by omega)
  generalize σ (m + 1) = s' at *
  cases hs <;> simp at h2

/-- A receive loop deals with the next event that has arrived. -/
theorem next_handled (F : FairRun cfg σ op) {c : Nat} {n : Nat} (hrec : ∀ m, n ≤ m → Receiving (σ m) c)
    (h : (handledOn (σ n) c).length < ((σ n).arrived c).length) : ∃ m, n ≤ m ∧ (handledOn (σ n) c).length < (handledOn (σ m) c).length :=
  next_handled_of F.run F.fair.takes F.fair.delivers (fun m r e _ hl => by
    obtain ⟨q, hq, _⟩ := (refInv (exec_reach F.run m)).sending c r e hl
    exact room_again F m ⟨q, hq⟩) hrec h

/-- Everything that has arrived is dealt with, if the next event always is. -/
theorem all_handled_of (E : Execution (step cfg) {} σ op) {c : Nat} {n : Nat}
    (next : ∀ m, n ≤ m → (handledOn (σ m) c).length < ((σ m).arrived c).length → ∃ m', m ≤ m' ∧ (handledOn (σ m) c).length < (handledOn (σ m') c).length) (j : Nat)
    (hj : j ≤ ((σ n).arrived c).length) : ∃ m, n ≤ m ∧ j ≤ (handledOn (σ m) c).length := by
  induction j with
  | zero => exact ⟨n, Nat.le_refl _, Nat.zero_le _⟩
  | succ j ih =>
    obtain ⟨m, hm, h⟩ := ih (by omega)
    by_cases hlt : j < (handledOn (σ m) c).length
    · exact ⟨m, hm, hlt⟩
    · have ha := ((exec_ext E hm).arrived c).length_le
      obtain ⟨m', hm', h'⟩ := next m hm (by omega)
      exact ⟨m', by omega, by omega⟩

/-- Everything that has arrived is dealt with. -/
theorem all_handled (F : FairRun cfg σ op) {c : Nat} {n : Nat} (hrec : ∀ m, n ≤ m → Receiving (σ m) c) (j : Nat)
    (hj : j ≤ ((σ n).arrived c).length) : ∃ m, n ≤ m ∧ j ≤ (handledOn (σ m) c).length :=
  all_handled_of F.run (fun m hm h => next_handled F (fun k hk => hrec k (by omega)) h) j hj

/-- What has been dealt with has arrived, in the same place. -/
theorem handled_arrived {s : State CB} (h : Reachable cfg s) (c : Nat) : handledOn s c <+: s.arrived c := by
  rw [arrInv h c, List.append_assoc]; exact List.prefix_append _ _

theorem afterResponse_ne (res : Except Error Bytes) (sent : Bool) : afterResponse res sent ≠ .running ∧ ∀ x, afterResponse res sent ≠ .responding x := by
  cases res <;> simp [afterResponse]

/-- A handler task gets to its end. -/
theorem task_ends_of (E : Execution (step cfg) {} σ op) {t : Nat}
    (handlers : WeaklyFair (step cfg) σ op fun o => (∃ res, o = .handlerDone t res) ∨ o = .handlerPanic t)
    (responds : WeaklyFair (step cfg) σ op fun o => (∃ id, o = .respond t id) ∨ o = .respondFail t) {n : Nat} {k : Task CB} (hk : (σ n).tasks t = some k) :
    ∃ m, n ≤ m ∧ ∃ k', (σ m).tasks t = some k' ∧ k'.event = k.event ∧ k'.conn = k.conn ∧
      (k'.phase = .crashed ∨ ∃ res sent, k'.phase = .cleaning res sent ∨ k'.phase = .done res sent) := by
  apply Classical.byContradiction
  intro hno
  have there : ∀ m, n ≤ m → ∃ k', (σ m).tasks t = some k' ∧ (k'.phase = .running ∨ ∃ res, k'.phase = .responding res) := by
    intro m hm
    obtain ⟨k', h1, h2, h3, _⟩ := (exec_ext E hm).tasks t k hk
    refine ⟨k', h1, ?_⟩
    cases hp : k'.phase with
    | running => exact .inl rfl
    | responding res => exact .inr ⟨res, rfl⟩
    | crashed => exact absurd ⟨m, hm, k', h1, h2, h3, .inl hp⟩ hno
    | cleaning res sent => exact absurd ⟨m, hm, k', h1, h2, h3, .inr ⟨res, sent, .inl hp⟩⟩ hno
    | done res sent => exact absurd ⟨m, hm, k', h1, h2, h3, .inr ⟨res, sent, .inr hp⟩⟩ hno
  have h1 : ∃ m, n ≤ m ∧ ∃ k' res, (σ m).tasks t = some k' ∧ k'.phase = .responding res := by
    apply Classical.byContradiction
    intro hno1
    have running : ∀ m, n ≤ m → ∃ k', (σ m).tasks t = some k' ∧ k'.phase = .running := by
      intro m hm
      obtain ⟨k', h1, h2 | ⟨res, h2⟩⟩ := there m hm
      · exact ⟨k', h1, h2⟩
      · exact absurd ⟨m, hm, k', res, h1, h2⟩ hno1
    obtain ⟨m, hm, o, ho, hC⟩ := handlers n (fun m hm => by
      obtain ⟨k', h1, h2⟩ := running m hm
      obtain ⟨res, hres⟩ := some_result (cfg := cfg) k'
      exact can (o := .handlerDone t res) (.inl ⟨res, rfl⟩) (by simp only [step, h1, h2, hres, if_true]; exact ⟨_, rfl⟩))
    obtain ⟨k', h1, h2⟩ := running (m + 1) (by omega)
    rcases hC with ⟨res, rfl⟩ | rfl
    · have hs := exec_taken E ho
      generalize σ (m + 1) = s' at *
      cases hs; simp at h1; subst h1; cases h2
    · have hs := exec_taken E ho
      generalize σ (m + 1) = s' at *
      cases hs; simp at h1; subst h1; cases h2
  obtain ⟨m1, hm1, k1, res1, hk1, hp1⟩ := h1
  have resp : ∀ m, m1 ≤ m → ∃ k' res, (σ m).tasks t = some k' ∧ k'.phase = .responding res := by
    intro m hm
    refine exec_keeps E (P := fun s => ∃ k' res, s.tasks t = some k' ∧ k'.phase = .responding res) ⟨k1, res1, hk1, hp1⟩ ?_ hm
    rintro m o hm' ⟨k', res, h1, h2⟩ hs
    obtain ⟨k2, g1, g2⟩ := there (m + 1) (by omega)
    generalize σ (m + 1) = s' at *
    cases hs
    all_goals try exact ⟨k', res, h1, h2⟩
    all_goals simp only [upd_apply] at g1 ⊢
    all_goals split at g1
    all_goals try (rw [if_neg (by assumption)]; exact ⟨k', res, h1, h2⟩)
    all_goals try (cases g1; rename_i htt; subst htt; simp_all; done)
    all_goals (cases g1; rename_i htt; subst htt; exfalso; rcases g2 with g2 | ⟨x, g2⟩ <;> exact absurd g2 (by simp [afterResponse_ne]))
  obtain ⟨m, hm, o, ho, hC⟩ := responds m1 (fun m hm => by
    obtain ⟨k', res, h1, h2⟩ := resp m hm
    exact can (o := .respond t 0) (.inl ⟨0, rfl⟩) (by simp only [step, h1, h2]; exact ⟨_, rfl⟩))
  obtain ⟨k', res, h1, h2⟩ := resp (m + 1) (by omega)
  rcases hC with ⟨id, rfl⟩ | rfl
  · have hs := exec_taken E ho
    generalize σ (m + 1) = s' at *
    cases hs with
    | respond _ k0 res0 _ hk0 hp0 => simp at h1; subst h1; cases res0 <;> cases h2
  · have hs := exec_taken E ho
    generalize σ (m + 1) = s' at *
    cases hs with
    | respondFail _ k0 res0 hk0 hp0 => simp at h1; subst h1; cases res0 <;> cases h2

end Bromine.Endpoint

namespace Bromine.Endpoint
open Spec Props

variable {CB : Type} {cfg : Config CB} {σ : Nat → State CB} {op : Nat → Option Op}

/-- A request does not stay unwritten. -/
theorem leaves_registered_of (E : Execution (step cfg) {} σ op) {r : Nat} (sends : WeaklyFair (step cfg) σ op fun o => o = .sent r ∨ o = .sendFail r) (n : Nat) (hq : ∃ q, (σ n).reqs r = some q) :
    ∃ m, n ≤ m ∧ ∃ q, (σ m).reqs r = some q ∧ q.phase ≠ .registered := by
  apply Classical.byContradiction
  intro hno
  have reg : ∀ m, n ≤ m → ∃ q, (σ m).reqs r = some q ∧ q.phase = .registered := by
    intro m hm
    obtain ⟨q0, hq0⟩ := hq
    obtain ⟨q, hq, _⟩ := (exec_ext E hm).reqs r q0 hq0
    exact ⟨q, hq, Classical.byContradiction fun hp => hno ⟨m, hm, q, hq, hp⟩⟩
  obtain ⟨m, hm, o, ho, hC⟩ := sends n (fun m hm => by
    obtain ⟨q, hq, hp⟩ := reg m hm
    exact can (o := .sent r) (.inl rfl) (by simp only [step, hq, hp, if_true]; exact ⟨_, rfl⟩))
  obtain ⟨q', hq', hp'⟩ := reg (m + 1) (by omega)
  rcases hC with rfl | rfl
  · have hs := exec_taken E ho
    generalize σ (m + 1) = s' at *
    cases hs; simp at hq'; subst hq'; cases hp'
  · have hs := exec_taken E ho
    generalize σ (m + 1) = s' at *
    cases hs; simp at hq'; subst hq'; cases hp'

theorem leaves_registered (F : FairRun cfg σ op) {r : Nat} (n : Nat) (hq : ∃ q, (σ n).reqs r = some q) :
    ∃ m, n ≤ m ∧ ∃ q, (σ m).reqs r = some q ∧ q.phase ≠ .registered :=
  leaves_registered_of F.run (F.fair.sends r) n hq

/-- Nothing gets back to being unwritten. -/
theorem stays_unregistered (E : Execution (step cfg) {} σ op) {r n m : Nat} (hm : n ≤ m) (h : ∃ q, (σ n).reqs r = some q ∧ q.phase ≠ .registered) :
    ∃ q, (σ m).reqs r = some q ∧ q.phase ≠ .registered := by
  refine exec_keeps E (P := fun s => ∃ q, s.reqs r = some q ∧ q.phase ≠ .registered) h ?_ hm
  rintro m o _ ⟨q, hq, hp⟩ hs
  generalize σ (m + 1) = s' at *
  cases hs
  all_goals try exact ⟨q, hq, hp⟩
  all_goals simp only [upd_apply]
  all_goals grind

/-- A request that is past its emit, and did not fail there, has been written. -/
theorem past_written {s : State CB} (h : Reachable cfg s) : ∀ r q, s.reqs r = some q → (q.phase = .waiting ∨ (∃ l, q.phase = .closing l) ∨ q.phase = .finished .replied) →
    ∃ x ∈ s.out q.conn, x.event = q.event := by
  refine reachable_induction (P := fun s => ∀ r q, s.reqs r = some q → (q.phase = .waiting ∨ (∃ l, q.phase = .closing l) ∨ q.phase = .finished .replied) →
    ∃ x ∈ s.out q.conn, x.event = q.event) (by simp) ?_ h
  intro s o s' _ ih hs r q hq hp
  have hold := ih r
  have hout : ∀ c x, x ∈ s.out c → x ∈ s'.out c := fun c x hx => (hs.ext.out c).subset hx
  have lift : ∀ q, s.reqs r = some q → (q.phase = .waiting ∨ (∃ l, q.phase = .closing l) ∨ q.phase = .finished .replied) → ∃ x ∈ s'.out q.conn, x.event = q.event := by
    intro q hq hp
    obtain ⟨x, h1, h2⟩ := hold q hq hp
    exact ⟨x, hout _ _ h1, h2⟩
  cases hs with
  | sent r0 q0 hq0 hp0 =>
    rcases upd_some hq with ⟨rfl, rfl⟩ | ⟨_, hq⟩
    · exact ⟨_, by simp only [upd_apply, if_true]; exact List.mem_append_right _ (List.mem_singleton.2 rfl), rfl⟩
    · exact lift q hq hp
  | chanClosed r0 q0 hq0 hp0 hb hl hcl ph hph =>
    rcases upd_some hq with ⟨rfl, rfl⟩ | ⟨_, hq⟩
    · exact lift q0 hq0 (.inl hp0)
    · exact lift q hq hp
  | finish r0 q0 last hq0 hp0 =>
    rcases upd_some hq with ⟨rfl, rfl⟩ | ⟨_, hq⟩
    · exact lift q0 hq0 (.inr (.inl ⟨last, hp0⟩))
    · exact lift q hq hp
  | deliver c t r0 e q0 hl hq0 ha hb =>
    rcases upd_some hq with ⟨rfl, rfl⟩ | ⟨_, hq⟩
    · exact lift q0 hq0 hp
    · exact lift q hq hp
  | _ =>
    first
    | exact lift q hq hp
    | (rcases upd_some hq with ⟨rfl, rfl⟩ | ⟨_, hq⟩
       · first
         | (have hh := lift _ (by assumption) (.inl (by assumption)); exact hh)
         | simp at hp
       · exact lift q hq hp)

/-- What has been taken from a channel stays taken. -/
theorem popped_prefix (E : Execution (step cfg) {} σ op) {r n m : Nat} {q : Req} (hq : (σ n).reqs r = some q) (hm : n ≤ m) :
    ∃ q', (σ m).reqs r = some q' ∧ q.popped <+: q'.popped := by
  refine exec_keeps E (P := fun s => ∃ q', s.reqs r = some q' ∧ q.popped <+: q'.popped) ⟨q, hq, List.prefix_rfl⟩ ?_ hm
  rintro m o _ ⟨q', hq', hp⟩ hs
  generalize σ (m + 1) = s' at *
  have app : ∀ e, q.popped <+: q'.popped ++ [e] := fun e => hp.trans (List.prefix_append _ _)
  cases hs
  all_goals try exact ⟨q', hq', hp⟩
  all_goals simp only [upd_apply]
  all_goals grind

/-- A request in its last step finishes. -/
theorem closing_finishes_of (E : Execution (step cfg) {} σ op) {r : Nat} (finishes : WeaklyFair (step cfg) σ op fun o => o = .finish r) {n : Nat} {q : Req} {l : Option Event} (hq : (σ n).reqs r = some q) (hp : q.phase = .closing l) :
    ∃ m, n ≤ m ∧ ∃ q', (σ m).reqs r = some q' ∧ q'.phase = .finished (if l.isSome then .replied else .closed) := by
  apply Classical.byContradiction
  intro hno
  have clos : ∀ m, n ≤ m → ∃ q, (σ m).reqs r = some q ∧ q.phase = .closing l := by
    intro m hm
    refine exec_keeps E (P := fun s => ∃ q, s.reqs r = some q ∧ q.phase = .closing l) ⟨q, hq, hp⟩ ?_ hm
    rintro m o hm' ⟨q', hq', hp'⟩ hs
    have hno' : ¬ ∃ q', (σ (m + 1)).reqs r = some q' ∧ q'.phase = .finished (if l.isSome then .replied else .closed) := fun h => hno ⟨m + 1, by omega, h⟩
    generalize σ (m + 1) = s' at *
    cases hs with
    | finish r0 q0 l0 hq0 hp0 =>
      by_cases hr : r = r0
      · subst hr
        rw [hq'] at hq0; cases hq0
        rw [hp'] at hp0; cases hp0
        exact absurd ⟨_, by simp only [upd_apply, if_true]; rfl, rfl⟩ hno'
      · exact ⟨q', by simpa [hr] using hq', hp'⟩
    | _ =>
      first
      | exact ⟨q', hq', hp'⟩
      | (simp only [upd_apply]; grind)
  obtain ⟨m, hm, o, ho, rfl⟩ := finishes n (fun m hm => by
    obtain ⟨q, hq, hp⟩ := clos m hm
    exact can (o := .finish r) rfl (by simp only [step, hq, hp]; exact ⟨_, rfl⟩))
  obtain ⟨q', hq', hp'⟩ := clos (m + 1) (by omega)
  have hs := exec_taken E ho
  generalize σ (m + 1) = s' at *
  cases hs; simp at hq'; subst hq'; cases hp'

end Bromine.Endpoint

namespace Bromine.System
open Bromine.Endpoint Spec Props

variable {CA CB : Type} {ca : Config CA} {cb : Config CB} {linked : Nat → Bool} {σ : Nat → Sys CA CB} {op : Nat → Option Op}

/-- The steps of the first endpoint in an execution of the system. -/
def leftOp (σ : Nat → Sys CA CB) (op : Nat → Option Op) (n : Nat) : Option Endpoint.Op :=
  match op n with
  | some (.left o) => some o
  | some (.toLeft c) => ((σ n).b.out c)[((σ n).a.arrived c).length]?.map fun x => .arrive c x.event
  | _ => none

theorem exec_step (E : Execution (step ca cb linked) {} σ op) (n : Nat) : σ (n + 1) = σ n ∨ ∃ o, op n = some o ∧ step ca cb linked (σ n) o = some (σ (n + 1)) := by
  have := E.next n
  cases h : op n with
  | none => rw [h] at this; exact .inl this
  | some o => rw [h] at this; exact .inr ⟨o, rfl, this⟩

theorem exec_left (E : Execution (step ca cb linked) {} σ op) : Execution (Endpoint.step ca) {} (fun n => (σ n).a) (leftOp σ op) := by
  refine ⟨by rw [E.start], fun n => ?_⟩
  have := E.next n
  simp only [leftOp]
  cases h : op n with
  | none => rw [h] at this; simp only at this ⊢; rw [this]
  | some o =>
    rw [h] at this
    cases o with
    | left o =>
      simp only [step] at this ⊢
      split at this
      · obtain ⟨a, h1, h2⟩ := Option.map_eq_some_iff.1 this
        rw [← h2]; exact h1
      · cases this
    | right o =>
      simp only [step] at this ⊢
      split at this
      · obtain ⟨a, h1, h2⟩ := Option.map_eq_some_iff.1 this
        rw [← h2]
      · cases this
    | toRight c =>
      simp only [step] at this ⊢
      split at this
      · split at this
        · obtain ⟨a, h1, h2⟩ := Option.map_eq_some_iff.1 this
          rw [← h2]
        · cases this
      · cases this
    | toLeft c =>
      simp only [step] at this ⊢
      split at this
      · split at this
        · rename_i x hx
          rw [hx]
          obtain ⟨a, h1, h2⟩ := Option.map_eq_some_iff.1 this
          rw [← h2]; exact h1
        · cases this
      · cases this

/-- Fairness of a side of the system is fairness of the endpoint. -/
theorem weak_left {C : Endpoint.Op → Prop} (hC : ∀ o, C o → isLocal linked o = true) (h : WeaklyFair (step ca cb linked) σ op fun o => ∃ p, C p ∧ o = .left p) :
    WeaklyFair (Endpoint.step ca) (fun n => (σ n).a) (leftOp σ op) C := by
  intro n hn
  obtain ⟨m, hm, o, ho, p, hp, rfl⟩ := h n (fun m hm => by
    obtain ⟨p, a', h1, h2⟩ := hn m hm
    exact ⟨.left p, { (σ m) with a := a' }, ⟨p, h1, rfl⟩, by simp [step, hC p h1, h2]⟩)
  exact ⟨m, hm, p, by simp [leftOp, ho], hp⟩

theorem strong_left {C : Endpoint.Op → Prop} (hC : ∀ o, C o → isLocal linked o = true) (h : StronglyFair (step ca cb linked) σ op fun o => ∃ p, C p ∧ o = .left p) :
    StronglyFair (Endpoint.step ca) (fun n => (σ n).a) (leftOp σ op) C := by
  intro n hn
  obtain ⟨m, hm, o, ho, p, hp, rfl⟩ := h n (fun m hm => by
    obtain ⟨m', hm', p, a', h1, h2⟩ := hn m hm
    exact ⟨m', hm', .left p, { (σ m') with a := a' }, ⟨p, h1, rfl⟩, by simp [step, hC p h1, h2]⟩)
  exact ⟨m, hm, p, by simp [leftOp, ho], hp⟩

theorem fairRun_left' (E : Execution (step ca cb linked) {} σ op) (H : FairSide (step ca cb linked) σ op .left) :
    FairRun ca (fun n => (σ n).a) (leftOp σ op) := by
  have w : ∀ (C : Endpoint.Op → Prop) (D : Op → Prop), (∀ o, C o → isLocal linked o = true) → (∀ o, D o ↔ ∃ p, C p ∧ o = .left p) →
      WeaklyFair (step ca cb linked) σ op D → WeaklyFair (Endpoint.step ca) (fun n => (σ n).a) (leftOp σ op) C := by
    intro C D hC hD h
    have : D = fun o => ∃ p, C p ∧ o = .left p := funext fun o => propext (hD o)
    subst this
    exact weak_left hC h
  refine ⟨exec_left E, ⟨fun c => ?_, fun c => ?_, fun r => ?_, fun r => ?_, fun r => ?_, fun t => ?_, fun t => ?_⟩⟩
  · refine w _ _ ?_ ?_ (H.takes c)
    · rintro o ⟨t, rfl⟩; rfl
    · intro o; constructor
      · rintro ⟨t, rfl⟩; exact ⟨_, ⟨t, rfl⟩, rfl⟩
      · rintro ⟨_, ⟨t, rfl⟩, rfl⟩; exact ⟨t, rfl⟩
  · have hD : (fun o : Op => ∃ t, o = .left (.deliver c t)) = fun o => ∃ p, (∃ t, p = id (Endpoint.Op.deliver c t)) ∧ o = .left p := by
      funext o; apply propext; constructor
      · rintro ⟨t, rfl⟩; exact ⟨_, ⟨t, rfl⟩, rfl⟩
      · rintro ⟨_, ⟨t, rfl⟩, rfl⟩; exact ⟨t, rfl⟩
    refine strong_left ?_ (hD ▸ H.delivers c)
    rintro o ⟨t, rfl⟩; rfl
  · refine w _ _ ?_ ?_ (H.sends r)
    · rintro o (rfl | rfl) <;> rfl
    · intro o; constructor
      · rintro (rfl | rfl)
        · exact ⟨_, .inl rfl, rfl⟩
        · exact ⟨_, .inr rfl, rfl⟩
      · rintro ⟨_, rfl | rfl, rfl⟩
        · exact .inl rfl
        · exact .inr rfl
  · refine w _ _ ?_ ?_ (H.reads r)
    · rintro o rfl; rfl
    · intro o; constructor
      · rintro rfl; exact ⟨_, rfl, rfl⟩
      · rintro ⟨_, rfl, rfl⟩; rfl
  · refine w _ _ ?_ ?_ (H.finishes r)
    · rintro o rfl; rfl
    · intro o; constructor
      · rintro rfl; exact ⟨_, rfl, rfl⟩
      · rintro ⟨_, rfl, rfl⟩; rfl
  · refine w _ _ ?_ ?_ (H.handlers t)
    · rintro o (⟨t, rfl⟩ | rfl) <;> rfl
    · intro o; constructor
      · rintro (⟨t, rfl⟩ | rfl)
        · exact ⟨_, .inl ⟨_, rfl⟩, rfl⟩
        · exact ⟨_, .inr rfl, rfl⟩
      · rintro ⟨_, ⟨t, rfl⟩ | rfl, rfl⟩
        · exact .inl ⟨_, rfl⟩
        · exact .inr rfl
  · refine w _ _ ?_ ?_ (H.responds t)
    · rintro o (⟨t, rfl⟩ | rfl) <;> rfl
    · intro o; constructor
      · rintro (⟨t, rfl⟩ | rfl)
        · exact ⟨_, .inl ⟨_, rfl⟩, rfl⟩
        · exact ⟨_, .inr rfl, rfl⟩
      · rintro ⟨_, ⟨t, rfl⟩ | rfl, rfl⟩
        · exact .inl ⟨_, rfl⟩
        · exact .inr rfl

theorem fairRun_left (F : FairSys ca cb linked σ op) : FairRun ca (fun n => (σ n).a) (leftOp σ op) := fairRun_left' F.run F.left

theorem Op.swap_swap (o : Op) : o.swap.swap = o := by cases o <;> rfl

theorem poss_swap (s : Sys CA CB) (C : Op → Prop) (h : Possible (step cb ca linked) s.swap C) : Possible (step ca cb linked) s (fun o => C o.swap) := by
  obtain ⟨o, s', h1, h2⟩ := h
  refine ⟨o.swap, s'.swap, by show C o.swap.swap; rw [Op.swap_swap]; exact h1, ?_⟩
  have := step_swap (ca := cb) (cb := ca) (linked := linked) s.swap o
  rw [h2] at this
  exact this

theorem exec_swap (E : Execution (step ca cb linked) {} σ op) : Execution (step cb ca linked) {} (fun n => (σ n).swap) (fun n => (op n).map Op.swap) := by
  refine ⟨by rw [E.start]; rfl, fun n => ?_⟩
  have := E.next n
  cases h : op n with
  | none => rw [h] at this; simp only [Option.map_none]; rw [this]
  | some o => rw [h] at this; simp only [Option.map_some]; rw [step_swap, this]; rfl

/-- Fairness of an endpoint in the mirrored execution. -/
theorem fairSide_swap {l l' : Endpoint.Op → Op} (hl : ∀ o p, o = l p ↔ o.swap = l' p) (R : FairSide (step ca cb linked) σ op l) :
    FairSide (step cb ca linked) (fun n => (σ n).swap) (fun n => (op n).map Op.swap) l' := by
  have weak : ∀ C D : Op → Prop, (∀ o, C o ↔ D o.swap) → WeaklyFair (step ca cb linked) σ op C →
      WeaklyFair (step cb ca linked) (fun n => (σ n).swap) (fun n => (op n).map Op.swap) D := by
    intro C D hCD h n hn
    have hC : C = fun o => D o.swap := funext fun o => propext (hCD o)
    subst hC
    obtain ⟨m, hm, o, ho, hc⟩ := h n (fun m hm => poss_swap (σ m) D (hn m hm))
    exact ⟨m, hm, o.swap, by simp [ho], hc⟩
  have strong : ∀ C D : Op → Prop, (∀ o, C o ↔ D o.swap) → StronglyFair (step ca cb linked) σ op C →
      StronglyFair (step cb ca linked) (fun n => (σ n).swap) (fun n => (op n).map Op.swap) D := by
    intro C D hCD h n hn
    have hC : C = fun o => D o.swap := funext fun o => propext (hCD o)
    subst hC
    obtain ⟨m, hm, o, ho, hc⟩ := h n (fun m hm => by
      obtain ⟨m', hm', hp⟩ := hn m hm
      exact ⟨m', hm', poss_swap (σ m') D hp⟩)
    exact ⟨m, hm, o.swap, by simp [ho], hc⟩
  refine ⟨fun c => weak _ _ ?_ (R.takes c), fun c => strong _ _ ?_ (R.delivers c), fun r => weak _ _ ?_ (R.sends r), fun r => weak _ _ ?_ (R.reads r),
    fun r => weak _ _ ?_ (R.finishes r), fun t => weak _ _ ?_ (R.handlers t), fun t => weak _ _ ?_ (R.responds t)⟩
  all_goals (intro o; simp only [hl])

theorem toRight_swap {c : Nat} (h : WeaklyFairWhile (step ca cb linked) σ op (fun s => Receiving s.a c) (· = .toLeft c)) :
    WeaklyFairWhile (step cb ca linked) (fun n => (σ n).swap) (fun n => (op n).map Op.swap) (fun s => Receiving s.b c) (· = .toRight c) := by
  intro n hn
  obtain ⟨m, hm, o, ho, rfl⟩ := h n fun m hm => ⟨(hn m hm).1, by
    obtain ⟨o, s', h1, h2⟩ := poss_swap (σ m) _ (hn m hm).2
    exact ⟨o, s', by cases o <;> simp_all [Op.swap], h2⟩⟩
  exact ⟨m, hm, _, by simp [ho]; rfl, rfl⟩

theorem toLeft_swap {c : Nat} (h : WeaklyFairWhile (step ca cb linked) σ op (fun s => Receiving s.b c) (· = .toRight c)) :
    WeaklyFairWhile (step cb ca linked) (fun n => (σ n).swap) (fun n => (op n).map Op.swap) (fun s => Receiving s.a c) (· = .toLeft c) := by
  intro n hn
  obtain ⟨m, hm, o, ho, rfl⟩ := h n fun m hm => ⟨(hn m hm).1, by
    obtain ⟨o, s', h1, h2⟩ := poss_swap (σ m) _ (hn m hm).2
    exact ⟨o, s', by cases o <;> simp_all [Op.swap], h2⟩⟩
  exact ⟨m, hm, _, by simp [ho]; rfl, rfl⟩

/-- The mirrored execution is fair. -/
theorem fairSys_swap (F : FairSys ca cb linked σ op) : FairSys cb ca linked (fun n => (σ n).swap) (fun n => (op n).map Op.swap) :=
  ⟨exec_swap F.run, fairSide_swap (by intro o p; cases o <;> simp [Op.swap]) F.right, fairSide_swap (by intro o p; cases o <;> simp [Op.swap]) F.left,
    fun c => toRight_swap (F.toLeft c), fun c => toLeft_swap (F.toRight c)⟩

theorem exec_reach (E : Execution (step ca cb linked) {} σ op) (n : Nat) : Reachable ca cb linked (σ n) := by
  induction n with
  | zero => rw [E.start]; exact ⟨[], rfl⟩
  | succ n ih =>
    rcases exec_step E n with h | ⟨o, _, h⟩
    · rw [h]; exact ih
    · obtain ⟨ops, ho⟩ := ih
      exact ⟨ops ++ [o], Props.run_append ho (by simp [run, h])⟩

/-- What has been written arrives, as long as it is read. -/
theorem all_arrive_of (E : Execution (step ca cb linked) {} σ op) {c : Nat}
    (toRight : WeaklyFairWhile (step ca cb linked) σ op (fun s => Receiving s.b c) (· = .toRight c)) (hl : linked c = true) (n j : Nat) (hj : j ≤ ((σ n).a.out c).length)
    (hrec : ∀ m, n ≤ m → Receiving (σ m).b c) : ∃ m, n ≤ m ∧ j ≤ ((σ m).b.arrived c).length := by
  induction j with
  | zero => exact ⟨n, Nat.le_refl _, Nat.zero_le _⟩
  | succ j ih =>
    obtain ⟨m, hm, h⟩ := ih (by omega)
    apply Classical.byContradiction
    intro hno
    have exact : ∀ k, m ≤ k → ((σ k).b.arrived c).length = j := by
      intro k hk
      have h1 := ((Endpoint.exec_ext (exec_left (exec_swap E)) hk).arrived c).length_le
      simp only [Sys.swap] at h1
      have h2 : ¬ j + 1 ≤ ((σ k).b.arrived c).length := fun h => hno ⟨k, by omega, h⟩
      omega
    have more : ∀ k, m ≤ k → j < ((σ k).a.out c).length := by
      intro k hk
      have := ((Endpoint.exec_ext (exec_left E) (show n ≤ k by omega)).out c).length_le
      omega
    obtain ⟨k, hk, o, ho, rfl⟩ := toRight m (fun k hk => by
      refine ⟨hrec k (by omega), ?_⟩
      have hlt := more k hk
      rw [← exact k hk] at hlt
      have : ∃ s', step ca cb linked (σ k) (.toRight c) = some s' := by
        simp only [step, hl, if_true, List.getElem?_eq_getElem hlt, Endpoint.step, Option.map_some]
        exact ⟨_, rfl⟩
      obtain ⟨s', hs⟩ := this
      exact ⟨_, s', rfl, hs⟩)
    have hs := E.next k
    rw [ho] at hs
    simp only [step, hl, if_true] at hs
    split at hs
    · simp only [Endpoint.step, Option.map_some, Option.some.injEq] at hs
      have := exact (k + 1) (by omega)
      rw [← hs] at this
      have hk' := exact k hk
      simp only [upd_apply, if_true, List.length_append, List.length_singleton] at this
      omega
    · cases hs

/-- What has been written arrives, as long as it is read. -/
theorem all_arrive (F : FairSys ca cb linked σ op) {c : Nat} (hl : linked c = true) (n j : Nat) (hj : j ≤ ((σ n).a.out c).length)
    (hrec : ∀ m, n ≤ m → Receiving (σ m).b c) : ∃ m, n ≤ m ∧ j ≤ ((σ m).b.arrived c).length := all_arrive_of F.run (F.toRight c) hl n j hj hrec

end Bromine.System
