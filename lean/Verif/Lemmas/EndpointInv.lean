import Verif.Lemmas.Endpoint
import Verif.Spec.Endpoint
/-
Invariants of an endpoint.
-/
namespace Bromine.Endpoint
open Spec

variable {CB : Type} {cfg : Config CB}

theorem run_append {s : State CB} {a b : List Op} :
    run cfg s (a ++ b) = (run cfg s a).bind fun s => run cfg s b := by
  induction a generalizing s with
  | nil => rfl
  | cons o a ih =>
    simp only [List.cons_append, run]
    cases step cfg s o with
    | none => rfl
    | some s1 => exact ih

theorem Reachable.run {s s' : State CB} {ops : List Op} (h : Reachable cfg s) (hr : run cfg s ops = some s') :
    Reachable cfg s' := by
  obtain ⟨o, ho⟩ := h
  exact ⟨o ++ ops, by rw [run_append, ho]; exact hr⟩

theorem Reachable.step {s s' : State CB} {op : Op} (h : Reachable cfg s) (hr : step cfg s op = some s') :
    Reachable cfg s' := h.run (ops := [op]) (by simp [Endpoint.run, hr])

theorem upd_some {β : Type} {f : Nat → Option β} {a x : Nat} {b q : β} (h : upd f a (some b) x = some q) :
    (x = a ∧ q = b) ∨ (x ≠ a ∧ f x = some q) := by
  simp only [upd_apply] at h
  split at h
  · rename_i hx; exact .inl ⟨hx, (Option.some.inj h).symm⟩
  · rename_i hx; exact .inr ⟨hx, h⟩

/-- Induction over the states reachable from a reachable state. -/
theorem run_induction {P : State CB → Prop} {s s' : State CB} {ops : List Op} (hre : Reachable cfg s)
    (hr : run cfg s ops = some s') (h0 : P s)
    (hstep : ∀ s op s', op ∈ ops → Reachable cfg s → P s → StepR cfg s op s' → P s') : P s' := by
  induction ops generalizing s with
  | nil => cases hr; exact h0
  | cons o ops ih =>
    simp only [run, Option.bind_eq_some_iff] at hr
    obtain ⟨s1, h1, h2⟩ := hr
    exact ih (hre.step h1) h2 (hstep s o s1 (by simp) hre h0 (stepR_of_step h1))
      (fun s op s' hm => hstep s op s' (by simp [hm]))

/-- Nothing that has been created disappears. -/
structure Ext (s s' : State CB) : Prop where
  reqs : ∀ r q, s.reqs r = some q → ∃ q', s'.reqs r = some q' ∧ q'.event = q.event ∧ q'.conn = q.conn ∧
    q'.kind = q.kind ∧ q'.origin = q.origin ∧ q'.regAt = q.regAt
  tasks : ∀ t k, s.tasks t = some k → ∃ k', s'.tasks t = some k' ∧ k'.event = k.event ∧ k'.conn = k.conn ∧
    k'.cb = k.cb
  processed : s.processed <+: s'.processed
  out : ∀ c, s.out c <+: s'.out c
  arrived : ∀ c, s.arrived c <+: s'.arrived c
  created : s.created <+: s'.created

theorem Ext.refl (s : State CB) : Ext s s :=
  ⟨fun _ q h => ⟨q, h, rfl, rfl, rfl, rfl, rfl⟩, fun _ k h => ⟨k, h, rfl, rfl, rfl⟩, List.prefix_rfl,
    fun _ => List.prefix_rfl, fun _ => List.prefix_rfl, List.prefix_rfl⟩

theorem Ext.trans {a b c : State CB} (h : Ext a b) (h' : Ext b c) : Ext a c := by
  refine ⟨?_, ?_, h.processed.trans h'.processed, fun x => (h.out x).trans (h'.out x),
    fun x => (h.arrived x).trans (h'.arrived x), h.created.trans h'.created⟩
  · intro r q hq
    obtain ⟨q1, h1, e1, e2, e3, e4, e5⟩ := h.reqs r q hq
    obtain ⟨q2, h2, f1, f2, f3, f4, f5⟩ := h'.reqs r q1 h1
    exact ⟨q2, h2, by simp_all⟩
  · intro t k hk
    obtain ⟨k1, h1, e1, e2, e3⟩ := h.tasks t k hk
    obtain ⟨k2, h2, f1, f2, f3⟩ := h'.tasks t k1 h1
    exact ⟨k2, h2, by simp_all⟩

theorem prefix_upd {α : Type} (f : Nat → List α) (a : Nat) (l : List α) (x : Nat) :
    f x <+: upd f a (f a ++ l) x := by
  simp only [upd_apply]
  split
  · rename_i h; subst h; exact List.prefix_append _ _
  · exact List.prefix_rfl

theorem StepR.ext {s s' : State CB} {op : Op} (hs : StepR cfg s op s') : Ext s s' := by
  refine ⟨?_, ?_, ?_, ?_, ?_, ?_⟩
  · intro r q hq
    cases hs
    all_goals try exact ⟨q, hq, rfl, rfl, rfl, rfl, rfl⟩
    all_goals simp only [upd_apply]
    all_goals grind
  · intro t k hk
    cases hs
    all_goals try exact ⟨k, hk, rfl, rfl, rfl⟩
    all_goals simp only [upd_apply]
    all_goals grind
  · cases hs
    all_goals first | exact List.prefix_rfl | exact List.prefix_append _ _
  · intro c
    cases hs
    all_goals first | exact List.prefix_rfl | exact prefix_upd _ _ _ _
  · intro c
    cases hs
    all_goals first | exact List.prefix_rfl | exact prefix_upd _ _ _ _
  · cases hs
    all_goals first | exact List.prefix_rfl | exact List.prefix_append _ _

theorem run_ext {s s' : State CB} {ops : List Op} (hre : Reachable cfg s) (hr : run cfg s ops = some s') : Ext s s' :=
  run_induction (P := Ext s) hre hr (Ext.refl s) fun _ _ _ _ _ h hs => h.trans hs.ext

theorem _root_.Bromine.Spec.FreshIds.of_ext {s s' : State CB} (h : FreshIds cfg s') (he : Ext s s') : FreshIds cfg s := by
  constructor
  · intro r r' q q' hq hq' hg hid
    obtain ⟨q1, h1, e1, e2, _⟩ := he.reqs r q hq
    obtain ⟨q2, h2, f1, f2, _⟩ := he.reqs r' q' hq'
    exact h.distinct r r' q1 q2 h1 h2 (by rw [e2, f2, hg]) (by rw [e1, f1, hid])
  · intro t k r q hk hq hg
    obtain ⟨k1, h1, e1, e2, _⟩ := he.tasks t k hk
    obtain ⟨q2, h2, f1, f2, _⟩ := he.reqs r q hq
    rw [← e1, ← f1]
    exact h.noCollision t k1 r q2 h1 h2 (by rw [e2, f2, hg])

/-! ### Listeners, the receive loops and deliveries refer to requests with the right id. -/

structure RefInv (cfg : Config CB) (s : State CB) : Prop where
  listener : ∀ g id r, s.listeners g id = some r →
    ∃ q, s.reqs r = some q ∧ q.event.id = id ∧ cfg.group q.conn = g
  sending : ∀ c r e, s.loop c = .sending r e →
    ∃ q, s.reqs r = some q ∧ e.referenceId = some q.event.id ∧ cfg.group q.conn = cfg.group c
  reply : ∀ x ∈ s.processed, ∀ r, x.dest = .reply r →
    ∃ q, s.reqs r = some q ∧ x.event.referenceId = some q.event.id ∧ cfg.group q.conn = cfg.group x.conn

theorem ctxEvent_id (ref : Option UInt64) (ns : Option String) (name : String) (p : Bytes) (id : UInt64) :
    (ctxEvent ref ns name p id).id = id := by
  cases ref <;> rfl

theorem refInv {s : State CB} (h : Reachable cfg s) : RefInv cfg s := by
  refine reachable_induction (P := RefInv cfg) ⟨by simp, by simp, by simp⟩ ?_ h
  intro s op s' _ ih hs
  constructor
  · intro g id r hl
    have hold := ih.listener g id r
    cases hs
    all_goals try exact hold hl
    all_goals simp only [upd_apply] at hl ⊢
    all_goals first | grind [ctxEvent_id, upd_apply] | (split <;> grind [ctxEvent_id, upd_apply])
  · intro c r e hl
    have hold := ih.sending c r e
    have hold2 := ih.listener
    cases hs
    all_goals try exact hold hl
    all_goals simp only [upd_apply] at hl ⊢
    all_goals grind
  · intro x hx r hd
    have hold := ih.reply x
    have hold2 := ih.sending
    cases hs
    all_goals try exact hold hx r hd
    all_goals try simp only [List.mem_append, List.mem_singleton] at hx
    all_goals simp only [upd_apply] at ⊢
    all_goals grind

/-! ### Arrival order -/

theorem arrInv {s : State CB} (h : Reachable cfg s) :
    ∀ c, s.arrived c = handledOn s c ++ held (s.loop c) ++ s.inbox c := by
  refine reachable_induction (P := fun s => ∀ c, s.arrived c = handledOn s c ++ held (s.loop c) ++ s.inbox c)
    (by simp [handledOn, held]) ?_ h
  intro s op s' _ ih hs c
  have hc := ih c
  cases hs
  all_goals try exact hc
  all_goals simp only [handledOn, upd_apply, List.filter_append, List.map_append] at hc ⊢
  all_goals grind [held]

/-! ### Accounting of deliveries -/

theorem delivered_append (s : State CB) (l : List Entry) (r : Nat) (s' : State CB) (h : s'.processed = s.processed ++ l) :
    delivered s' r = delivered s r ++ (l.filter fun x => decide (x.dest = .reply r)).map (·.event) := by
  simp [delivered, h]

/-- What has been taken from the channel: a waiting `await_reply` nothing, a stream nothing after an End event. -/
def Shape (q : Req) : Prop :=
  match q.phase with
  | .registered => q.popped = []
  | .waiting => (q.kind = .single → q.popped = []) ∧ ∀ e ∈ q.popped, e.eventType ≠ .end
  | .closing (some e) => ∃ l, q.popped = l ++ [e] ∧ (q.kind = .single → l = []) ∧ (∀ e ∈ l, e.eventType ≠ .end) ∧
      (q.kind = .stream → e.eventType = .end)
  | .closing none => q.kind = .stream ∧ ∀ e ∈ q.popped, e.eventType ≠ .end
  | .finished .replied => ∃ l e, q.popped = l ++ [e] ∧ (q.kind = .single → l = []) ∧ (∀ e ∈ l, e.eventType ≠ .end) ∧
      (q.kind = .stream → e.eventType = .end)
  | .finished _ => (q.kind = .single → q.popped = []) ∧ ∀ e ∈ q.popped, e.eventType ≠ .end

structure ReqInv (s : State CB) : Prop where
  account : ∀ r q, s.reqs r = some q → q.popped ++ q.buf = delivered s r
  room : ∀ r q, s.reqs r = some q → q.buf.length ≤ 8
  shape : ∀ r q, s.reqs r = some q → Shape q
  none : ∀ r, s.reqs r = none → delivered s r = []
  late : ∀ r q, s.reqs r = some q → q.regAt ≤ s.processed.length ∧
    ∀ x ∈ s.processed.take q.regAt, x.dest ≠ .reply r

theorem delivered_nil_iff (s : State CB) (r : Nat) : delivered s r = [] ↔ ∀ x ∈ s.processed, x.dest ≠ .reply r := by
  simp [delivered]

theorem reqInv {s : State CB} (h : Reachable cfg s) : ReqInv s := by
  refine reachable_induction (P := ReqInv) ⟨by simp, by simp, by simp, by simp [delivered], by simp⟩ ?_ h
  intro s op s' hre ih hs
  have hri := refInv hre
  constructor
  · intro r q hq
    have hold := ih.account r
    have hno := ih.none r
    cases hs
    all_goals try exact hold q hq
    all_goals simp only [upd_apply] at hq
    all_goals simp only [delivered, List.filter_append, List.map_append] at hold hno ⊢
    all_goals grind
  · intro r q hq
    have hold := ih.room r
    cases hs
    all_goals try exact hold q hq
    all_goals simp only [upd_apply] at hq
    all_goals grind
  · intro r q hq
    have hold := ih.shape r
    cases hs with
    | deliver c t r0 e q0 hl hq0 ha hb =>
      rcases upd_some hq with ⟨rfl, rfl⟩ | ⟨_, hq⟩
      · exact hold q0 hq0
      · exact hold q hq
    | request r0 =>
      rcases upd_some hq with ⟨rfl, rfl⟩ | ⟨_, hq⟩
      · rfl
      · exact hold q hq
    | recv r0 q0 e rest hq0 hp hb hc =>
      rcases upd_some hq with ⟨rfl, rfl⟩ | ⟨_, hq⟩
      · have := hold q0 hq0
        simp only [Shape, hp] at this ⊢
        grind
      · exact hold q hq
    | recvLast r0 q0 e rest hq0 hp hb hc =>
      rcases upd_some hq with ⟨rfl, rfl⟩ | ⟨_, hq⟩
      · have := hold q0 hq0
        simp only [Shape, hp] at this ⊢
        exact ⟨q0.popped, rfl, this.1, this.2, by grind⟩
      · exact hold q hq
    | finish r0 q0 last hq0 hp =>
      rcases upd_some hq with ⟨rfl, rfl⟩ | ⟨_, hq⟩
      · have := hold q0 hq0
        cases last with
        | none => simp only [Shape, hp] at this ⊢; simp_all
        | some e =>
          simp only [Shape, hp] at this ⊢
          obtain ⟨l, h⟩ := this
          exact ⟨l, e, h⟩
      · exact hold q hq
    | chanClosed r0 q0 hq0 hp hb hl hcl ph hph =>
      rcases upd_some hq with ⟨rfl, rfl⟩ | ⟨_, hq⟩
      · have := hold q0 hq0
        subst hph
        cases hk : q0.kind <;> simp_all [Shape]
      · exact hold q hq
    | sent r0 q0 hq0 hp =>
      rcases upd_some hq with ⟨rfl, rfl⟩ | ⟨_, hq⟩
      · have := hold q0 hq0
        simp_all [Shape]
      · exact hold q hq
    | sendFail r0 q0 hq0 hp =>
      rcases upd_some hq with ⟨rfl, rfl⟩ | ⟨_, hq⟩
      · have := hold q0 hq0
        simp_all [Shape]
      · exact hold q hq
    | timeout r0 q0 hq0 hp =>
      rcases upd_some hq with ⟨rfl, rfl⟩ | ⟨_, hq⟩
      · have := hold q0 hq0
        simp_all [Shape]
      · exact hold q hq
    | drop r0 q0 hq0 hp =>
      rcases upd_some hq with ⟨rfl, rfl⟩ | ⟨_, hq⟩
      · have := hold q0 hq0
        rcases hp with hp | hp <;> simp_all [Shape]
      · exact hold q hq
    | _ => exact hold q hq
  · intro r hq
    have hold := ih.none r
    have hse := hri.sending
    cases hs
    all_goals try exact hold hq
    all_goals simp only [upd_apply] at hq
    all_goals simp only [delivered, List.filter_append, List.map_append] at hold ⊢
    all_goals grind
  · intro r q hq
    have hold := ih.late r
    have hno := ih.none r
    rw [delivered_nil_iff] at hno
    cases hs
    all_goals try exact hold q hq
    all_goals simp only [upd_apply] at hq
    case request => grind
    all_goals
      have hl : q.regAt ≤ s.processed.length := by grind
      first
        | (refine ⟨by simp; omega, ?_⟩
           rw [List.take_append_of_le_length hl]
           grind)
        | grind

end Bromine.Endpoint
