import Verif.Lemmas.EndpointInv
/-
Invariants about handler tasks and emitted events.
-/
namespace Bromine.Endpoint
open Spec

variable {CB : Type} {cfg : Config CB}

theorem finalEvent_isAnswer (k : Task CB) (res : Except Error Bytes) (id : UInt64) :
    IsAnswer cfg.fmtDebug k.event res (finalEvent cfg k res id) := by
  cases res with
  | ok b => exact ⟨rfl, rfl, rfl, rfl, rfl⟩
  | error x => exact ⟨rfl, rfl, rfl, rfl, rfl⟩

theorem finalEvent_ref (k : Task CB) (res : Except Error Bytes) (id : UInt64) :
    (finalEvent cfg k res id).referenceId = some k.event.id := by cases res <;> rfl

theorem finalEvent_id (k : Task CB) (res : Except Error Bytes) (id : UInt64) :
    (finalEvent cfg k res id).id = id := by cases res <;> rfl

theorem finalEvent_congr {k k' : Task CB} (h : k'.event = k.event) (res : Except Error Bytes) (id : UInt64) :
    finalEvent cfg k' res id = finalEvent cfg k res id := by cases res <;> simp [finalEvent, h]

/-- The entries of `processed` for handler task `t`. -/
def taskEntries (s : State CB) (t : Nat) : List Entry := s.processed.filter fun x => decide (x.dest = .handler t)

/-- The entries that a task must have. -/
def taskEntry (t : Nat) : Option (Task CB) → List Entry
  | none => []
  | some k => [{ conn := k.conn, event := k.event, dest := .handler t }]

theorem taskEntries_eq {s : State CB} (h : Reachable cfg s) : ∀ t, taskEntries s t = taskEntry t (s.tasks t) := by
  refine reachable_induction (P := fun s => ∀ t, taskEntries s t = taskEntry t (s.tasks t)) (fun _ => rfl) ?_ h
  intro s op s' hre ih hs t
  have hold := ih t
  simp only [taskEntries] at hold ⊢
  cases hs
  all_goals try exact hold
  all_goals simp only [upd_apply, List.filter_append]
  all_goals grind [taskEntry]

/-- Where the callback of a task comes from. -/
theorem task_callback {s : State CB} (h : Reachable cfg s) : ∀ t k, s.tasks t = some k →
    (k.cb = registered cfg k.event ∧ k.event.eventType ≠ .end) ∨
    (k.cb = cfg.global.callback k.event.name ∧ ∃ r q, s.reqs r = some q ∧ q.alive = false ∧
      k.event.referenceId = some q.event.id ∧ cfg.group q.conn = cfg.group k.conn) := by
  refine reachable_induction (P := fun s => ∀ t k, s.tasks t = some k →
    (k.cb = registered cfg k.event ∧ k.event.eventType ≠ .end) ∨
    (k.cb = cfg.global.callback k.event.name ∧ ∃ r q, s.reqs r = some q ∧ q.alive = false ∧
      k.event.referenceId = some q.event.id ∧ cfg.group q.conn = cfg.group k.conn)) (by simp) ?_ h
  intro s op s' hre ih hs t k hk
  have hold := ih t
  have keep : ∀ r q, s.reqs r = some q → q.alive = false →
      ∃ q', s'.reqs r = some q' ∧ q'.alive = false ∧ q'.event = q.event ∧ q'.conn = q.conn := by
    intro r q hq ha
    cases hs
    all_goals try exact ⟨q, hq, ha, rfl, rfl⟩
    all_goals simp only [upd_apply]
    all_goals grind [Req.alive]
  have lift : ∀ k, s.tasks t = some k →
      (k.cb = registered cfg k.event ∧ k.event.eventType ≠ .end) ∨
      (k.cb = cfg.global.callback k.event.name ∧ ∃ r q, s'.reqs r = some q ∧ q.alive = false ∧
        k.event.referenceId = some q.event.id ∧ cfg.group q.conn = cfg.group k.conn) := by
    intro k hk
    rcases hold k hk with h | ⟨h1, r, q, h2, h3, h4, h5⟩
    · exact .inl h
    · obtain ⟨q', a, b, c, d⟩ := keep r q h2 h3
      exact .inr ⟨h1, r, q', a, b, by rw [c, h4], by rw [d, h5]⟩
  cases hs with
  | takeHandler c e rest cb t0 hl hi hn hty hcb ht =>
    rcases upd_some hk with ⟨rfl, rfl⟩ | ⟨_, hk⟩
    · refine .inl ⟨?_, hty⟩
      simp only [registered, hcb]
      cases hns : e.ns with
      | none => rfl
      | some n =>
        simp only [Option.bind_some]
        cases cfg.namespaces.get n <;> rfl
    · exact lift k hk
  | deliverDead c r0 e q0 t0 hl hq0 ha ht =>
    rcases upd_some hk with ⟨rfl, rfl⟩ | ⟨_, hk⟩
    · obtain ⟨q1, h1, h2, h3⟩ := (refInv hre).sending c r0 e hl
      rw [hq0] at h1
      cases h1
      exact .inr ⟨rfl, r0, q0, hq0, ha, h2, h3⟩
    · exact lift k hk
  | _ =>
    first
    | exact lift k hk
    | (rcases upd_some hk with ⟨rfl, rfl⟩ | ⟨_, hk⟩
       · have hh := lift _ (by assumption)
         exact hh
       · exact lift k hk)

/-- The results of handlers are possible ones. -/
theorem task_result {s : State CB} (h : Reachable cfg s) : ∀ t k, s.tasks t = some k → ∀ res,
    (k.phase = .responding res ∨ ∃ sent, k.phase = .cleaning res sent ∨ k.phase = .done res sent) →
    resultPossible cfg k res = true := by
  refine reachable_induction (P := fun s => ∀ t k, s.tasks t = some k → ∀ res,
    (k.phase = .responding res ∨ ∃ sent, k.phase = .cleaning res sent ∨ k.phase = .done res sent) →
    resultPossible cfg k res = true) (by simp) ?_ h
  intro s op s' hre ih hs t k hk res hp
  have hold := ih t
  cases hs with
  | handlerDone t0 k0 res0 hk0 hp0 hr =>
    rcases upd_some hk with ⟨rfl, rfl⟩ | ⟨_, hk⟩
    · simp at hp; subst hp; exact hr
    · exact hold k hk res hp
  | respond t0 k0 res0 id hk0 hp0 =>
    rcases upd_some hk with ⟨rfl, rfl⟩ | ⟨_, hk⟩
    · have := hold k0 hk0 res0 (.inl hp0)
      cases res0 <;> simp [afterResponse] at hp <;> subst hp <;> exact this
    · exact hold k hk res hp
  | respondFail t0 k0 res0 hk0 hp0 =>
    rcases upd_some hk with ⟨rfl, rfl⟩ | ⟨_, hk⟩
    · have := hold k0 hk0 res0 (.inl hp0)
      cases res0 <;> simp [afterResponse] at hp <;> subst hp <;> exact this
    · exact hold k hk res hp
  | cleanup t0 k0 res0 sent hk0 hp0 =>
    rcases upd_some hk with ⟨rfl, rfl⟩ | ⟨_, hk⟩
    · have := hold k0 hk0 res0 (.inr ⟨sent, .inl hp0⟩)
      simp at hp; subst hp; exact this
    · exact hold k hk res hp
  | _ =>
    first
    | exact hold k hk res hp
    | (rcases upd_some hk with ⟨rfl, rfl⟩ | ⟨_, hk⟩
       · simp at hp
       · exact hold k hk res hp)

/-- Who emitted an event determines its type, its reference and its connection. -/
def OriginOK (cfg : Config CB) (s : State CB) (c : Nat) (o : Origin) (e : Event) : Prop :=
  match o with
  | .conn => e.referenceId = none ∧ e.eventType = .initiator
  | .task t => ∃ k, s.tasks t = some k ∧ k.conn = c ∧ userCallback cfg k = true ∧ e.referenceId = some k.event.id ∧
      e.eventType = .response
  | .final t => ∃ k res id, s.tasks t = some k ∧ k.conn = c ∧ e = finalEvent cfg k res id ∧
      (k.phase = .cleaning res true ∨ k.phase = .done res true)

theorem originOK_ctx {s : State CB} {ctx : Ctx} {c : Nat} {ref : Option UInt64} (h : ctxOf cfg s ctx = some (c, ref))
    (ns : Option String) (name : String) (p : Bytes) (id : UInt64) :
    OriginOK cfg s c ctx.origin (ctxEvent ref ns name p id) := by
  cases ctx with
  | conn c' =>
    simp only [ctxOf, Option.some.injEq, Prod.mk.injEq] at h
    obtain ⟨rfl, rfl⟩ := h
    exact ⟨rfl, rfl⟩
  | task t =>
    simp only [ctxOf] at h
    split at h
    · rename_i k hk
      split at h
      · rename_i hu
        simp only [Option.some.injEq, Prod.mk.injEq] at h
        obtain ⟨rfl, rfl⟩ := h
        exact ⟨k, hk, rfl, hu, rfl, rfl⟩
      · cases h
    · cases h

theorem StepR.originOK {s s' : State CB} {op : Op} (hs : StepR cfg s op s') {c : Nat} {o : Origin} {e : Event}
    (h : OriginOK cfg s c o e) : OriginOK cfg s' c o e := by
  cases o with
  | conn => exact h
  | task t =>
    obtain ⟨k, h1, h2, h3, h4, h5⟩ := h
    obtain ⟨k', g1, g2, g3, g4⟩ := hs.ext.tasks t k h1
    exact ⟨k', g1, by rw [g3, h2], by simpa [userCallback, g4] using h3, by rw [g2, h4], h5⟩
  | final t =>
    obtain ⟨k, res, id, h1, h2, h3, h4⟩ := h
    have : ∃ k', s'.tasks t = some k' ∧ k'.conn = k.conn ∧ k'.event = k.event ∧
        (k'.phase = .cleaning res true ∨ k'.phase = .done res true) := by
      cases hs
      all_goals try exact ⟨k, h1, rfl, rfl, h4⟩
      all_goals simp only [upd_apply]
      all_goals grind
    obtain ⟨k', g1, g2, g3, g4⟩ := this
    exact ⟨k', res, id, g1, by rw [g2, h2], by rw [h3, finalEvent_congr g3], g4⟩

structure OutInv (cfg : Config CB) (s : State CB) : Prop where
  out : ∀ c, ∀ x ∈ s.out c, OriginOK cfg s c x.origin x.event
  req : ∀ r q, s.reqs r = some q → OriginOK cfg s q.conn q.origin q.event ∧ ∀ t, q.origin ≠ .final t

theorem ctx_origin_ne (ctx : Ctx) (t : Nat) : ctx.origin ≠ .final t := by cases ctx <;> simp [Ctx.origin]

theorem outInv {s : State CB} (h : Reachable cfg s) : OutInv cfg s := by
  refine reachable_induction (P := OutInv cfg) ⟨by simp, by simp⟩ ?_ h
  intro s op s' hre ih hs
  have hor := @StepR.originOK CB cfg s s' op hs
  constructor
  · intro c x hx
    cases hs with
    | sent r q hq hp =>
      simp only [upd_apply] at hx
      split at hx
      · rename_i hc
        subst hc
        simp only [List.mem_append, List.mem_singleton] at hx
        rcases hx with hx | rfl
        · exact hor (ih.out _ x hx)
        · exact hor (ih.req r q hq).1
      · exact hor (ih.out c x hx)
    | emit ctx c0 ref ns name payload id hc =>
      simp only [upd_apply] at hx
      split at hx
      · rename_i hcc
        subst hcc
        simp only [List.mem_append, List.mem_singleton] at hx
        rcases hx with hx | rfl
        · exact hor (ih.out _ x hx)
        · exact hor (originOK_ctx hc _ _ _ _)
      · exact hor (ih.out c x hx)
    | respond t k res id hk hp =>
      simp only [upd_apply] at hx
      split at hx
      · rename_i hcc
        subst hcc
        simp only [List.mem_append, List.mem_singleton] at hx
        rcases hx with hx | rfl
        · exact hor (ih.out _ x hx)
        · refine ⟨{ k with phase := afterResponse res true }, res, id, by simp, rfl, finalEvent_congr rfl _ _, ?_⟩
          cases res <;> simp [afterResponse]
      · exact hor (ih.out c x hx)
    | _ => exact hor (ih.out c x hx)
  · intro r q hq
    cases hs with
    | request r0 ctx c ref kind ns name payload id hr hc =>
      rcases upd_some hq with ⟨rfl, rfl⟩ | ⟨_, hq⟩
      · exact ⟨hor (originOK_ctx hc _ _ _ _), ctx_origin_ne ctx⟩
      · exact ⟨hor (ih.req r q hq).1, (ih.req r q hq).2⟩
    | _ =>
      first
      | exact ⟨hor (ih.req r q hq).1, (ih.req r q hq).2⟩
      | (rcases upd_some hq with ⟨rfl, rfl⟩ | ⟨_, hq⟩
         · have := ih.req _ _ (by assumption)
           exact ⟨hor this.1, this.2⟩
         · exact ⟨hor (ih.req r q hq).1, (ih.req r q hq).2⟩)

/-- The final events of task `t` on connection `c`. -/
def Finals (cfg : Config CB) (s : State CB) (t c : Nat) : Prop :=
  match s.tasks t with
  | none => emittedBy s c (.final t) = []
  | some k =>
    match k.phase with
    | .cleaning res sent => if sent = true ∧ c = k.conn then ∃ id, emittedBy s c (.final t) = [finalEvent cfg k res id]
        else emittedBy s c (.final t) = []
    | .done res sent => if sent = true ∧ c = k.conn then ∃ id, emittedBy s c (.final t) = [finalEvent cfg k res id]
        else emittedBy s c (.final t) = []
    | _ => emittedBy s c (.final t) = []

theorem emittedBy_congr {s s' : State CB} {c : Nat} {o : Origin} (h : s'.out c = s.out c) :
    emittedBy s' c o = emittedBy s c o := by simp [emittedBy, h]

theorem emittedBy_append {s s' : State CB} {c : Nat} {o : Origin} {x : OutEntry} (h : s'.out c = s.out c ++ [x]) :
    emittedBy s' c o = emittedBy s c o ++ if x.origin = o then [x.event] else [] := by
  simp only [emittedBy, h, List.filter_append, List.map_append]
  split <;> simp_all

theorem finals {s : State CB} (h : Reachable cfg s) : ∀ t c, Finals cfg s t c := by
  refine reachable_induction (P := fun s => ∀ t c, Finals cfg s t c) (fun _ _ => by simp [Finals, emittedBy]) ?_ h
  intro s op s' hre ih hs t c
  have hold := ih t c
  -- steps that change neither the task nor the emitted final events
  have same : s'.tasks t = s.tasks t → emittedBy s' c (.final t) = emittedBy s c (.final t) → Finals cfg s' t c := by
    intro h1 h2
    simp only [Finals, h1, h2]
    exact hold
  have hreq := (outInv hre).req
  cases hs with
  | takeHandler c0 e rest cb t0 hl hi hn hty hcb ht =>
    by_cases htt : t = t0
    · subst htt
      simp only [Finals, ht] at hold
      simp only [Finals, upd_apply, if_true]
      exact hold
    · exact same (by simp [htt]) rfl
  | deliverDead c0 r0 e q0 t0 hl hq0 ha ht =>
    by_cases htt : t = t0
    · subst htt
      simp only [Finals, ht] at hold
      simp only [Finals, upd_apply, if_true]
      exact hold
    · exact same (by simp [htt]) rfl
  | sent r q hq hp =>
    refine same rfl ?_
    by_cases hc : c = q.conn
    · subst hc
      rw [emittedBy_append (s := s) (x := { origin := q.origin, event := q.event }) (by simp)]
      simp [(hreq r q hq).2]
    · exact emittedBy_congr (by simp [hc])
  | emit ctx c0 ref ns name payload id hc0 =>
    refine same rfl ?_
    by_cases hc : c = c0
    · subst hc
      rw [emittedBy_append (s := s) (x := { origin := ctx.origin, event := ctxEvent ref ns name payload id }) (by simp)]
      simp [ctx_origin_ne]
    · exact emittedBy_congr (by simp [hc])
  | handlerDone t0 k res hk hp hr =>
    by_cases htt : t = t0
    · subst htt
      simp only [Finals, hk, hp] at hold
      simp only [Finals, upd_apply, if_true]
      exact hold
    · exact same (by simp [htt]) rfl
  | handlerPanic t0 k cb hk hp hcb hd =>
    by_cases htt : t = t0
    · subst htt
      simp only [Finals, hk, hp] at hold
      simp only [Finals, upd_apply, if_true]
      exact hold
    · exact same (by simp [htt]) rfl
  | respond t0 k res id hk hp =>
    by_cases htt : t = t0
    · subst htt
      simp only [Finals, hk, hp] at hold
      by_cases hc : c = k.conn
      · subst hc
        have := emittedBy_append (s := s) (o := .final t) (s' := { s with
          tasks := upd s.tasks t (some { k with phase := afterResponse res true }),
          out := upd s.out k.conn (s.out k.conn ++ [{ origin := .final t, event := finalEvent cfg k res id }]), created := s.created ++ [id] })
          (x := { origin := .final t, event := finalEvent cfg k res id }) (c := k.conn) (by simp)
        simp only [Finals, upd_apply, if_true]
        rw [hold, if_pos rfl, List.nil_append] at this
        cases res <;> simp only [afterResponse, and_self, if_true] <;> exact ⟨id, this⟩
      · have := emittedBy_congr (s := s) (o := .final t) (s' := { s with
          tasks := upd s.tasks t (some { k with phase := afterResponse res true }),
          out := upd s.out k.conn (s.out k.conn ++ [{ origin := .final t, event := finalEvent cfg k res id }]), created := s.created ++ [id] })
          (c := c) (by simp [hc])
        simp only [Finals, upd_apply, if_true]
        rw [hold] at this
        cases res <;> simp only [afterResponse, hc, and_false, if_false] <;> exact this
    · refine same (by simp [htt]) ?_
      by_cases hc : c = k.conn
      · subst hc
        rw [emittedBy_append (s := s) (x := { origin := .final t0, event := finalEvent cfg k res id }) (by simp)]
        simp [Ne.symm htt]
      · exact emittedBy_congr (by simp [hc])
  | respondFail t0 k res hk hp =>
    by_cases htt : t = t0
    · subst htt
      simp only [Finals, hk, hp] at hold
      simp only [Finals, upd_apply, if_true]
      cases res <;> simp only [afterResponse, Bool.false_eq_true, false_and, if_false] <;> exact hold
    · exact same (by simp [htt]) rfl
  | cleanup t0 k res sent hk hp =>
    by_cases htt : t = t0
    · subst htt
      simp only [Finals, hk, hp] at hold
      simp only [Finals, upd_apply, if_true]
      split
      · rename_i hh
        rw [if_pos hh] at hold
        obtain ⟨id, h⟩ := hold
        exact ⟨id, h.trans (congrArg (fun x => [x]) (finalEvent_congr rfl res id).symm)⟩
      · rename_i hh
        rw [if_neg hh] at hold
        exact hold
    · exact same (by simp [htt]) rfl
  | _ => exact same rfl rfl

theorem upd_bound {β : Type} {f : Nat → Option β} (h : ∃ N, ∀ t, N ≤ t → f t = none) (a : Nat) (b : Option β) :
    ∃ N, ∀ t, N ≤ t → upd f a b t = none := by
  obtain ⟨N, hN⟩ := h
  refine ⟨max N (a + 1), fun t ht => ?_⟩
  have := hN t (by omega)
  simp only [upd_apply]
  split
  · omega
  · exact this

/-- There is always a free task number. -/
theorem fresh_task {s : State CB} (h : Reachable cfg s) : ∃ t, s.tasks t = none := by
  have : ∃ N, ∀ t, N ≤ t → s.tasks t = none := by
    refine reachable_induction (P := fun s => ∃ N, ∀ t, N ≤ t → s.tasks t = none) ⟨0, fun _ _ => rfl⟩ ?_ h
    intro s op s' hre ⟨N, hN⟩ hs
    cases hs
    all_goals try exact ⟨N, hN⟩
    all_goals exact upd_bound ⟨N, hN⟩ _ _
  exact ⟨_, this.choose_spec _ (Nat.le_refl _)⟩

end Bromine.Endpoint
