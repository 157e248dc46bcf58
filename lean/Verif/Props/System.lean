import Verif.Lemmas.System
import Verif.Props.Dispatch
import Mathlib.Data.List.Nodup
/-
C46, C47, C29: two endpoints joined by reliable connections.
-/
namespace Bromine.Props
open Endpoint Spec

section
variable {CA CB : Type} {ca : Config CA} {cb : Config CB} {linked : Nat → Bool}

/-- The request is old, or new in this step. -/
theorem req_back {C : Type} {cfg : Config C} {s s' : State C} {op : Op} (hs : StepR cfg s op s') {r : Nat} {q : Req}
    (hq : s'.reqs r = some q) :
    (∃ q0, s.reqs r = some q0 ∧ q0.event = q.event ∧ q0.conn = q.conn ∧ q0.regAt = q.regAt) ∨
    (q.phase = .registered ∧ s'.processed = s.processed) := by
  cases hs
  all_goals try exact .inl ⟨q, hq, rfl, rfl, rfl⟩
  all_goals simp only [upd_apply] at hq
  all_goals grind

/-- No event that refers to a request is received before its registration. -/
theorem no_early_reply {s : System.Sys CA CB} (h : System.Reachable ca cb linked s) : System.DistinctIds s →
    ∀ r q, s.a.reqs r = some q → (∀ c, ca.group c = ca.group q.conn → linked c = true) →
    ∀ x ∈ s.a.processed.take q.regAt, answers ca q x = false := by
  refine System.reachable_induction (P := fun s => System.DistinctIds s →
    ∀ r q, s.a.reqs r = some q → (∀ c, ca.group c = ca.group q.conn → linked c = true) →
    ∀ x ∈ s.a.processed.take q.regAt, answers ca q x = false) (by simp) ?_ h
  intro s op s' hre ih hs hd r q hq hl x hx
  have hre' : System.Reachable ca cb linked s' := by
    obtain ⟨ops, ho⟩ := hre
    refine ⟨ops ++ [op], ?_⟩
    suffices ∀ (l : List System.Op) (y : System.Sys CA CB), System.run ca cb linked y l = some s →
      System.run ca cb linked y (l ++ [op]) = some s' from this ops {} ho
    intro l
    induction l with
    | nil => intro y hy; cases hy; simp [System.run, hs]
    | cons o l ihl =>
      intro y hy
      simp only [System.run, Option.bind_eq_some_iff, List.cons_append] at hy ⊢
      obtain ⟨z, hz, hz'⟩ := hy
      exact ⟨z, hz, ihl z hz'⟩
  have hd0 : System.DistinctIds s := by
    refine hd.sublist (List.Sublist.append ?_ ?_)
    · rcases System.step_cases hs with ⟨o, h1, h2, _⟩ | ⟨o, h1, h2, _⟩
      · exact (stepR_of_step h1).ext.created.sublist
      · rw [h2]
    · rcases System.step_cases hs with ⟨o, h1, h2, _⟩ | ⟨o, h1, h2, _⟩
      · rw [h2]
      · exact (stepR_of_step h1).ext.created.sublist
  rcases System.step_cases hs with ⟨o, h1, h2, _⟩ | ⟨o, h1, h2, _⟩
  · rcases req_back (stepR_of_step h1) hq with ⟨q0, g1, g2, g3, g4⟩ | ⟨g1, g2⟩
    · have hlen := ((reqInv (System.reachable_left hre)).late r q0 g1).1
      obtain ⟨l, hpl⟩ := (stepR_of_step h1).ext.processed
      rw [← hpl, ← g4, List.take_append_of_le_length hlen] at hx
      have := ih hd0 r q0 g1 (by rw [g3]; exact hl) x hx
      simpa [answers, g2, g3] using this
    · refine Bool.eq_false_iff.2 fun hans => ?_
      simp only [answers, Bool.and_eq_true, decide_eq_true_eq] at hans
      have hxm : x ∈ s'.a.processed := List.mem_of_mem_take hx
      have harr : x.event ∈ s'.a.arrived x.conn := by
        rw [arrInv (System.reachable_left hre')]
        simp [handled_mem hxm]
      obtain ⟨y, _, _, t, k, _, _, hkid, _, z, hz, hze⟩ := System.reply_source hre' (hl _ hans.2) harr hans.1
      exact (unique (System.reachable_left hre') hd.left).unsent r q hq g1 x.conn z hz (by rw [hze, hkid])
  · rw [h2] at hq hx
    exact ih hd0 r q hq hl x hx

theorem out_ids_nodup {C : Type} {s : State C} (h : Unique s) (c : Nat) : ((s.out c).map fun x => x.event.id).Nodup := by
  rw [List.nodup_iff_injective_get]
  intro i j hij
  simp only [List.get_eq_getElem, List.getElem_map] at hij
  have hi : i.1 < (s.out c).length := by have := i.2; simp at this; exact this
  have hj : j.1 < (s.out c).length := by have := j.2; simp at this; exact this
  have := h.out c c i.1 j.1 _ _ (List.getElem?_eq_getElem hi) (List.getElem?_eq_getElem hj) hij
  exact Fin.ext this.2

/-- An event is handled by one task only. -/
theorem one_task {s : System.Sys CA CB} (h : System.Reachable ca cb linked s) (hd : System.DistinctIds s) {c t t' : Nat}
    {k k' : Endpoint.Task CB} (hl : linked c = true) (hk : s.b.tasks t = some k) (hk' : s.b.tasks t' = some k') (hc : k.conn = c)
    (hc' : k'.conn = c) (hid : k.event.id = k'.event.id) : t = t' := by
  have hre := System.reachable_right h
  have hmem : ∀ t k, s.b.tasks t = some k → k.conn = c →
      ({ conn := c, event := k.event, dest := .handler t } : Entry) ∈ s.b.processed.filter fun x => decide (x.conn = c) := by
    intro t k hk hc
    have h1 := taskEntries_eq hre t
    rw [hk] at h1
    have hm : ({ conn := k.conn, event := k.event, dest := .handler t } : Entry) ∈ taskEntries s.b t := by
      rw [h1]; simp [taskEntry]
    rw [hc] at hm
    simp [(List.mem_filter.1 hm).1]
  have hnd : ((s.b.processed.filter fun x => decide (x.conn = c)).map fun x => x.event.id).Nodup := by
    have h1 : handledOn s.b c <+: (s.a.out c).map (·.event) := by
      refine List.IsPrefix.trans ?_ (System.fifo_right h c hl)
      rw [arrInv hre, List.append_assoc]
      exact List.prefix_append _ _
    have h2 := (h1.sublist.map (·.id))
    have h3 := out_ids_nodup (unique (System.reachable_left h) hd.left) c
    rw [List.map_map] at h2
    have := h3.sublist h2
    rw [handledOn, List.map_map] at this
    exact this
  have := List.inj_on_of_nodup_map hnd (hmem t k hk hc) (hmem t' k' hk' hc') hid
  simp at this
  exact this.2

/-- **C46.** Everything a request has received was emitted by the one handler task of the other side that handled the
event of this very request, and it is a prefix of what that task emitted: for any number of concurrent requests,
connections and handlers. -/
theorem C46_end_to_end {s : System.Sys CA CB} (h : System.Reachable ca cb linked s) (hd : System.DistinctIds s)
    (hf : FreshIds ca s.a) {r : Nat} {q : Req} (hq : s.a.reqs r = some q)
    (hl : ∀ c, ca.group c = ca.group q.conn → linked c = true) (hp : q.popped ≠ []) :
    ∃ t k, s.b.tasks t = some k ∧ k.event = q.event ∧ k.conn = q.conn ∧ q.popped <+: answersOf s.b q.conn t ∧
      ∀ t' k', s.b.tasks t' = some k' → k'.event = q.event → k'.conn = q.conn → t' = t := by
  have hra := System.reachable_left h
  have hrb := System.reachable_right h
  have hu := unique hra hd.left
  -- every event on a connection of the listener map that refers to the request comes from a task for it
  have src : ∀ c e, ca.group c = ca.group q.conn → e ∈ s.a.arrived c → e.referenceId = some q.event.id →
      c = q.conn ∧ ∃ t k, s.b.tasks t = some k ∧ k.conn = q.conn ∧ k.event = q.event := by
    intro c e hg he hid
    obtain ⟨y, hy, hye, t, k, h1, h2, h3, h4, x, hx, hxe⟩ := System.reply_source h (hl c hg) he hid
    obtain ⟨h5, h6⟩ := hu.own r q hq c x hx (by rw [hxe, h3])
    subst h5
    refine ⟨rfl, t, k, h1, h2, ?_⟩
    rw [← hxe, h6]
  obtain ⟨e0, he0⟩ := List.exists_mem_of_ne_nil _ hp
  obtain ⟨hr0, c0, hg0, ha0⟩ := C20_correlated hra hq e0 he0
  obtain ⟨hc0, t, k, hk, hkc, hke⟩ := src c0 e0 hg0 ha0 hr0
  have hlc : linked q.conn = true := hl _ rfl
  have huniq : ∀ t' k', s.b.tasks t' = some k' → k'.event.id = q.event.id → k'.conn = q.conn → t' = t := by
    intro t' k' h1 h2 h3
    exact one_task h hd hlc h1 hk h3 hkc (by rw [h2, hke])
  refine ⟨t, k, hk, hke, hkc, ?_, fun t' k' h1 h2 h3 => huniq t' k' h1 (by rw [h2]) h3⟩
  refine (C22_prefix hra hf hq).trans ?_
  have e1 : (s.a.processed.drop q.regAt).filter (answers ca q) = s.a.processed.filter (answers ca q) := by
    conv => rhs; rw [← List.take_append_drop q.regAt s.a.processed, List.filter_append]
    have : (s.a.processed.take q.regAt).filter (answers ca q) = [] := by
      rw [List.filter_eq_nil_iff]
      intro x hx
      simp [no_early_reply h hd r q hq hl x hx]
    rw [this, List.nil_append]
  have e2 : s.a.processed.filter (answers ca q) =
      (s.a.processed.filter fun x => decide (x.conn = q.conn)).filter
        (fun x => decide (x.event.referenceId = some q.event.id)) := by
    rw [List.filter_filter]
    apply List.filter_congr
    intro x hx
    have harr : x.event ∈ s.a.arrived x.conn := by rw [arrInv hra]; simp [handled_mem hx]
    by_cases hid : x.event.referenceId = some q.event.id
    · by_cases hg : ca.group x.conn = ca.group q.conn
      · simp [answers, hid, (src _ _ hg harr hid).1]
      · have : x.conn ≠ q.conn := fun hh => hg (by rw [hh])
        simp [answers, hid, hg, this]
    · simp [answers, hid]
  have e3 : (((s.a.processed.filter fun x => decide (x.conn = q.conn)).filter
        (fun x => decide (x.event.referenceId = some q.event.id))).map (·.event)) =
      (handledOn s.a q.conn).filter (fun e => decide (e.referenceId = some q.event.id)) := by
    rw [handledOn, List.filter_map]; rfl
  rw [e1, e2, e3]
  have p1 : handledOn s.a q.conn <+: (s.b.out q.conn).map (·.event) := by
    refine List.IsPrefix.trans ?_ (System.fifo_left h q.conn hlc)
    rw [arrInv hra, List.append_assoc]
    exact List.prefix_append _ _
  refine (p1.filter _).trans ?_
  rw [List.filter_map, answersOf]
  have : (s.b.out q.conn).filter ((fun e => decide (e.referenceId = some q.event.id)) ∘ (·.event)) =
      (s.b.out q.conn).filter fun y => decide (y.origin = .task t ∨ y.origin = .final t) := by
    apply List.filter_congr
    intro y hy
    have ho := (outInv hrb).out q.conn y hy
    simp only [Function.comp, decide_eq_decide]
    rcases hyo : y.origin with _ | t' | t'
    · rw [hyo] at ho; simp [ho.1]
    · rw [hyo] at ho
      obtain ⟨k', h1, h2, h3, h4, h5⟩ := ho
      simp only [h4, Option.some.injEq, Origin.task.injEq, reduceCtorEq, or_false]
      constructor
      · intro hid; exact huniq t' k' h1 hid h2
      · rintro rfl; rw [hk] at h1; cases h1; rw [hke]
    · rw [hyo] at ho
      obtain ⟨k', res, i, h1, h2, h3, h4⟩ := ho
      rw [h3, finalEvent_ref]
      simp only [Option.some.injEq, Origin.final.injEq, reduceCtorEq, false_or]
      constructor
      · intro hid; exact huniq t' k' h1 hid h2
      · rintro rfl; rw [hk] at h1; cases h1; rw [hke]
  rw [this]
  exact List.prefix_rfl

/-- **C46 for `await_reply`.** The reply is the first event that the handler of the request emitted, or its final
answer if it emitted none. -/
theorem C46_await_reply {s : System.Sys CA CB} (h : System.Reachable ca cb linked s) (hd : System.DistinctIds s)
    (hf : FreshIds ca s.a) {r : Nat} {q : Req} (hq : s.a.reqs r = some q)
    (hl : ∀ c, ca.group c = ca.group q.conn → linked c = true) {e : Event} (hp : q.popped = [e]) :
    ∃ t k, s.b.tasks t = some k ∧ k.event = q.event ∧ k.conn = q.conn ∧ (answersOf s.b q.conn t).head? = some e := by
  obtain ⟨t, k, h1, h2, h3, h4, _⟩ := C46_end_to_end h hd hf hq hl (by simp [hp])
  refine ⟨t, k, h1, h2, h3, ?_⟩
  rw [hp] at h4
  obtain ⟨l, hl⟩ := h4
  rw [← hl]
  rfl

/-- **C46: the End or Error event that a request receives is the answer made from the result of its handler.** -/
theorem C46_final_result {s : System.Sys CA CB} (h : System.Reachable ca cb linked s) (hd : System.DistinctIds s)
    (hf : FreshIds ca s.a) {r : Nat} {q : Req} (hq : s.a.reqs r = some q)
    (hl : ∀ c, ca.group c = ca.group q.conn → linked c = true) {e : Event} (he : e ∈ q.popped)
    (hty : e.eventType = .end ∨ e.eventType = .error) :
    ∃ t k res, s.b.tasks t = some k ∧ k.event = q.event ∧ k.conn = q.conn ∧ IsAnswer cb.fmtDebug q.event res e ∧
      (k.phase = .cleaning res true ∨ k.phase = .done res true) := by
  obtain ⟨t, k, h1, h2, h3, h4, _⟩ := C46_end_to_end h hd hf hq hl (List.ne_nil_of_mem he)
  have hm := h4.subset he
  simp only [answersOf, List.mem_map, List.mem_filter, decide_eq_true_eq] at hm
  obtain ⟨y, ⟨hy, hyo⟩, rfl⟩ := hm
  have ho := (outInv (System.reachable_right h)).out q.conn y hy
  rcases hyo with hyo | hyo
  · rw [hyo] at ho
    obtain ⟨k', g1, g2, g3, g4, g5⟩ := ho
    rw [g5] at hty
    simp at hty
  · rw [hyo] at ho
    obtain ⟨k', res, i, g1, g2, g3, g4⟩ := ho
    rw [h1] at g1
    cases g1
    refine ⟨t, k, res, h1, h2, h3, ?_, g4⟩
    rw [g3, ← h2]
    exact finalEvent_isAnswer k res i

/-- A request with a stream, a handler on the other side that emits an event and answers. -/
def opsExchange : List System.Op := [.left (.request 0 (.conn 0) .stream none "ping" [1] 7),
    .left (.sent 0), .toRight 0, .right (.take 0 3), .right (.emit (.task 3) none "a" [5] 101), .toLeft 0,
    .left (.take 0 0), .left (.deliver 0 0), .left (.recv 0), .right (.handlerDone 3 (.ok [6])), .right (.respond 3 102),
    .right (.cleanup 3), .toLeft 0, .left (.take 0 0), .left (.deliver 0 0), .left (.recv 0), .left (.finish 0)]

/-- The hypotheses of C46 can be met: a client with a request, a server whose handler emits an event and answers. -/
example : ∃ (s : System.Sys Nat Nat) (q : Req), System.Reachable demo demo (fun _ => true) s ∧ System.DistinctIds s ∧
    FreshIds demo s.a ∧ s.a.reqs 0 = some q ∧ q.kind = .stream ∧
    q.popped = [Event.new 101 none "a" [5] (some 7) .response, Event.new 102 none "end" [6] (some 7) .end] := by
  obtain ⟨s, hs⟩ : ∃ s, System.run demo demo (fun _ => true) {} opsExchange = some s := ⟨_, rfl⟩
  have hre : System.Reachable demo demo (fun _ => true) s := ⟨_, hs⟩
  have hcr : s.a.created = [7] ∧ s.b.created = [101, 102] := by cases hs; exact ⟨rfl, rfl⟩
  have hd : System.DistinctIds s := by
    show (s.a.created ++ s.b.created).Nodup
    rw [hcr.1, hcr.2]; decide +kernel
  have hf := System.freshIds hre hd (fun _ => rfl)
  cases hs
  exact ⟨_, _, hre, hd, hf, rfl, rfl, by decide +kernel⟩

/-! ### C29, C47: no endless exchange of End and Error events -/

/-- **C29.** Between two endpoints with different ids, an End event is only ever handled (rather than received by a
request, or dropped) if the event it answers is an Initiator or a Response. So an answer to an End or Error event is
never answered again. -/
theorem C29_no_ping_pong {s : System.Sys CA CB} (h : System.Reachable ca cb linked s) (hd : System.DistinctIds s)
    {t : Nat} {k : Endpoint.Task CB} (hk : s.b.tasks t = some k)
    (hl : ∀ c, cb.group c = cb.group k.conn → linked c = true) (hty : k.event.eventType = .end) :
    ∃ t' k', s.a.tasks t' = some k' ∧ k.event.referenceId = some k'.event.id ∧
      (k'.event.eventType = .initiator ∨ k'.event.eventType = .response) := by
  have hrb := System.reachable_right h
  have hra := System.reachable_left h
  obtain ⟨r, q, hq, _, href, hg⟩ := C29_end_unanswered hrb hk hty
  obtain ⟨hin, _⟩ := System.task_event h hk (hl _ rfl)
  obtain ⟨y, hy, hye, t', k', h1, h2, h3, h4, x, hx, hxe⟩ :=
    System.reply_source (System.reachable_swap h) (c := k.conn) (hl _ rfl) hin href
  refine ⟨t', k', h1, by rw [href, h3], ?_⟩
  -- the event answered is the event of the request `q`
  have hx' : x ∈ s.b.out k.conn := hx
  obtain ⟨_, h6⟩ := (unique hrb hd.right).own r q hq k.conn x hx' (by rw [hxe, h3])
  have ho := (outInv hrb).req r q hq
  rw [← hxe, h6]
  rcases hqo : q.origin with _ | t2 | t2
  · rw [hqo] at ho; exact .inl ho.1.2
  · rw [hqo] at ho
    obtain ⟨k2, _, _, _, _, g5⟩ := ho.1
    exact .inr g5
  · exact absurd hqo (ho.2 t2)

/-- The hypotheses of `C29_no_ping_pong` can be met: the answer to a request that has timed out is handled. -/
example : ∃ (s : System.Sys Nat Nat) (k : Endpoint.Task Nat), System.Reachable demo demo (fun _ => true) s ∧
    System.DistinctIds s ∧ s.b.tasks 5 = some k ∧ k.event.eventType = .end := by
  obtain ⟨s, hs⟩ : ∃ s, System.run demo demo (fun _ => true) {} [.right (.request 0 (.conn 0) .single none "q" [] 7),
    .right (.sent 0), .toLeft 0, .left (.take 0 3), .right (.timeout 0), .left (.handlerDone 3 (.ok [])),
    .left (.respond 3 20), .toRight 0, .right (.take 0 0), .right (.deliver 0 5)] = some s := ⟨_, rfl⟩
  have hre : System.Reachable demo demo (fun _ => true) s := ⟨_, hs⟩
  cases hs
  exact ⟨_, _, hre, (by decide +kernel : ([20] ++ [7] : List UInt64).Nodup), rfl, rfl⟩

/-- **C47.** If the first endpoint handles an error event with its default error handler, then all that it emits for
it is one End event without payload, and no handler of the other side ever handles that End event: the exchange is
over. -/
theorem C47_error_exchange_ends {s : System.Sys CA CB} (h : System.Reachable ca cb linked s) (hd : System.DistinctIds s)
    (hl : ∀ c, linked c = true) {t : Nat} {k : Endpoint.Task CA} (hk : s.a.tasks t = some k)
    (hty : k.event.eventType = .error) {f : CA} (hcb : k.cb = some f) (hdef : ca.isDefaultError f = true)
    {d : ErrorEventData} (hpay : k.event.payload errorPayload = .ok d) :
    (∀ c, ∀ y ∈ s.a.out c, y.event.referenceId = some k.event.id → c = k.conn →
      y.origin = .final t ∧ y.event.eventType = .end ∧ y.event.dataRaw = []) ∧
    ∀ t' k', s.b.tasks t' = some k' → k'.event.referenceId = some k.event.id → k'.event.eventType ≠ .end := by
  have hra := System.reachable_left h
  have hsw := System.reachable_swap h
  constructor
  · rintro c y hy href rfl
    have ho := (outInv hra).out _ y hy
    rcases hyo : y.origin with _ | t2 | t2
    · rw [hyo] at ho; rw [ho.1] at href; cases href
    · rw [hyo] at ho
      obtain ⟨k2, g1, g2, g3, g4, g5⟩ := ho
      rw [g4] at href
      have : t = t2 := one_task hsw hd.swap (hl _) hk g1 rfl g2 (Option.some.inj href).symm
      subst this
      rw [hk] at g1
      cases g1
      simp [userCallback, hcb, hdef] at g3
    · rw [hyo] at ho
      obtain ⟨k2, res, i, g1, g2, g3, g4⟩ := ho
      have hri := href
      rw [g3, finalEvent_ref] at hri
      have : t = t2 := one_task hsw hd.swap (hl _) hk g1 rfl g2 (Option.some.inj hri).symm
      subst this
      rw [hk] at g1
      cases g1
      have hr := task_result hra t k hk res (by rcases g4 with g4 | g4 <;> simp [g4])
      have hans := finalEvent_isAnswer (cfg := ca) k res i
      rw [← g3] at hans
      cases res with
      | error x => simp [resultPossible, hcb, hdef, hpay] at hr
      | ok b =>
        simp only [resultPossible, hcb, hdef, hpay, if_true, decide_eq_true_eq] at hr
        subst hr
        exact ⟨rfl, hans.2.2.1, hans.2.2.2.2⟩
  · intro t' k' hk' href hend
    obtain ⟨t2, k2, h1, h2, h3⟩ := C29_no_ping_pong h hd hk' (fun c _ => hl c) hend
    rw [href] at h2
    have hid := Option.some.inj h2
    -- `k` and `k2` handle events with the same id, so it is the same event
    obtain ⟨_, x, hx, hxe⟩ := System.task_event hsw (t := t) (k := k) hk (hl _)
    obtain ⟨_, y, hy, hye⟩ := System.task_event hsw (t := t2) (k := k2) h1 (hl _)
    obtain ⟨i, hi⟩ := List.getElem?_of_mem hx
    obtain ⟨j, hj⟩ := List.getElem?_of_mem hy
    obtain ⟨hc, hij⟩ := (unique (System.reachable_right h) hd.right).out k.conn k2.conn i j x y hi hj
      (by rw [hxe, hye, hid])
    have hi' : (s.b.out k.conn)[i]? = some x := hi
    have hj' : (s.b.out k2.conn)[j]? = some y := hj
    rw [hc, hij, hj'] at hi'
    have : y = x := Option.some.inj hi'
    rw [← hye, this, hxe, hty] at h3
    simp at h3

/-- The hypotheses of `C47_error_exchange_ends` can be met: the handler of the second endpoint fails, the first one
handles the error event, and its answer arrives. -/
example : ∃ (s : System.Sys Nat Nat) (k : Endpoint.Task Nat) (d : ErrorEventData),
    System.Reachable demo demo (fun _ => true) s ∧
    System.DistinctIds s ∧ s.a.tasks 4 = some k ∧ k.event.eventType = .error ∧ k.cb = some 0 ∧
    k.event.payload errorPayload = .ok d ∧ (s.b.arrived 0).map (·.eventType) = [.initiator, .end] := by
  obtain ⟨s, hs⟩ : ∃ s, System.run demo demo (fun _ => true) {} [.left (.emit (.conn 0) none "ping" [] 7),
    .toRight 0, .right (.take 0 3), .right (.handlerDone 3 (.error .receive)), .right (.respond 3 20), .toLeft 0,
    .left (.take 0 4), .left (.handlerDone 4 (.ok [])), .left (.respond 4 8), .toRight 0] = some s := ⟨_, rfl⟩
  have hre : System.Reachable demo demo (fun _ => true) s := ⟨_, hs⟩
  cases hs
  exact ⟨_, _, { code := 500, message := "failed" }, hre, (by decide +kernel : ([7, 8] ++ [20] : List UInt64).Nodup), rfl,
    rfl, rfl, by decide +kernel, by decide +kernel⟩

end

/-! ### C47: without a default error handler on one side -/

/-- A configuration with an own error handler, which may fail. -/
def demoOwn : Config Nat := { demo with global := { callbacks := [("error", 3)] } }

/-- The last event emitted by the first endpoint is an error event that has not arrived; nothing else is going on.
`n`: tasks so far. -/
structure Loops (n : Nat) (s : System.Sys Nat Nat) : Prop where
  loopA : s.a.loop 0 = .idle
  loopB : s.b.loop 0 = .idle
  inboxA : s.a.inbox 0 = []
  inboxB : s.b.inbox 0 = []
  listenA : ∀ g i, s.a.listeners g i = none
  listenB : ∀ g i, s.b.listeners g i = none
  tasksA : ∀ t, n ≤ t → s.a.tasks t = none
  tasksB : ∀ t, n ≤ t → s.b.tasks t = none
  arrA : (s.a.arrived 0).length = (s.b.out 0).length
  last : ∃ l x, s.a.out 0 = l ++ [x] ∧ (s.b.arrived 0).length = l.length ∧ x.event.eventType = .error ∧
    x.event.name = "error" ∧ x.event.ns = none

theorem loops_round {n : Nat} {s : System.Sys Nat Nat} (h : Loops n s) (id : UInt64) :
    ∃ s', System.run demoOwn demoOwn (fun _ => true) s
        [.toRight 0, .right (.take 0 n), .right (.handlerDone n (.error .receive)), .right (.respond n id)] = some s' ∧
      Loops (n + 1) s'.swap ∧ s'.a = s.a ∧
      (∃ y, s'.b.out 0 = s.b.out 0 ++ [y] ∧ y.origin = .final n ∧ y.event.eventType = .error) ∧
      s'.b.created = s.b.created ++ [id] := by
  obtain ⟨l, x, h1, h2, h3, h4, h5⟩ := h.last
  have hx : (s.a.out 0)[(s.b.arrived 0).length]? = some x := by rw [h1, h2]; simp
  have hcb : demoOwn.global.callback "error" = some 3 := rfl
  have hlis : (x.event.referenceId.bind fun a => s.b.listeners (demoOwn.group 0) a) = none := by
    cases x.event.referenceId <;> simp [h.listenB]
  have hns : x.event.ns.bind (fun n => demoOwn.namespaces.get n) = none := by rw [h5]; rfl
  simp only [System.run, System.step, if_true, hx, Endpoint.step, Option.map_some, Option.bind_some, upd_apply,
    h.inboxB, h.loopB, List.nil_append, System.isLocal, route, hlis, h3, h4, h5, hcb, spawn, h.tasksB n (Nat.le_refl _),
    resultPossible, Option.bind_none, reduceCtorEq, if_false]
  have hd3 : demoOwn.isDefaultError 3 = false := rfl
  simp only [hd3, Bool.false_eq_true, if_false, if_true, Option.map_some, Option.bind_some, upd_apply, afterResponse]
  refine ⟨_, rfl, ?_, rfl, ⟨_, rfl, rfl, ?_⟩, rfl⟩
  · refine ⟨h.loopB, h.loopA, ?_, h.inboxA, h.listenB, h.listenA, ?_, fun t ht => h.tasksA t (by omega), ?_, ?_⟩
    · simp [System.Sys.swap, upd_apply]
    · intro t ht
      have : t ≠ n := by omega
      simp only [System.Sys.swap, upd_apply, this, if_false]
      exact h.tasksB t (by omega)
    · simp [System.Sys.swap, upd_apply, h1, h2]
    · refine ⟨_, _, rfl, h.arrA, rfl, ?_, rfl⟩
      rfl
  · rfl

theorem run_append {CA CB : Type} {ca : Config CA} {cb : Config CB} {linked : Nat → Bool} {l l' : List System.Op} :
    ∀ {x y z : System.Sys CA CB}, System.run ca cb linked x l = some y → System.run ca cb linked y l' = some z →
    System.run ca cb linked x (l ++ l') = some z := by
  induction l with
  | nil => intro x y z h h'; cases h; exact h'
  | cons o l ih =>
    intro x y z h h'
    simp only [System.run, List.cons_append, Option.bind_eq_some_iff] at h ⊢
    obtain ⟨w, h1, h2⟩ := h
    exact ⟨w, h1, ih h2 h'⟩

/-- **C47, without a default error handler.** If both sides have an error handler of their own that fails, one emitted
event leads to any number of error events, although nobody emits anything any more: the library itself does not stop
the exchange. The condition of C47 is needed. -/
theorem C47_condition_needed (n : Nat) : ∃ s : System.Sys Nat Nat, System.Reachable demoOwn demoOwn (fun _ => true) s ∧
    n ≤ ((s.a.out 0 ++ s.b.out 0).filter fun y => decide (y.event.eventType = .error)).length ∧
    ((s.a.out 0 ++ s.b.out 0).filter fun y => decide (y.origin = .conn)).length = 1 ∧
    (n + 3 < 2 ^ 64 → System.DistinctIds s) := by
  suffices ∃ s : System.Sys Nat Nat, System.Reachable demoOwn demoOwn (fun _ => true) s ∧ Loops (n + 1) s ∧
      n ≤ ((s.a.out 0 ++ s.b.out 0).filter fun y => decide (y.event.eventType = .error)).length ∧
      ((s.a.out 0 ++ s.b.out 0).filter fun y => decide (y.origin = .conn)).length = 1 ∧
      (n + 3 < 2 ^ 64 → (∀ i ∈ s.a.created ++ s.b.created, i.toNat < n + 3) ∧ System.DistinctIds s) by
    obtain ⟨s, h1, _, h2, h3, h4⟩ := this
    exact ⟨s, h1, h2, h3, fun h => (h4 h).2⟩
  induction n with
  | zero =>
    refine ⟨_, ⟨[.right (.emit (.conn 0) none "error" [] 1), .toLeft 0, .left (.take 0 0),
      .left (.handlerDone 0 (.error .receive)), .left (.respond 0 2)], rfl⟩, ?_, by simp, rfl, fun _ => ?_⟩
    · refine ⟨rfl, rfl, rfl, rfl, fun _ _ => rfl, fun _ _ => rfl, ?_, fun _ _ => rfl, rfl, [], _, rfl, rfl, rfl, rfl, rfl⟩
      intro t ht
      have : t ≠ 0 := by omega
      simp [upd, this]
    · exact ⟨(by decide +kernel : ∀ i ∈ ([2] ++ [1] : List UInt64), i.toNat < 3),
        (by decide +kernel : ([2] ++ [1] : List UInt64).Nodup)⟩
  | succ n ih =>
    obtain ⟨s, ⟨ops, hops⟩, hl, hn, hc, hd⟩ := ih
    obtain ⟨s', hrun, hl', ha, ⟨y, hy, hyo, hye⟩, hcr⟩ := loops_round hl (UInt64.ofNat (n + 3))
    refine ⟨s'.swap, System.reachable_swap ⟨_, run_append hops hrun⟩, hl', ?_, ?_, fun hb => ?_⟩
    · simp only [System.Sys.swap, ha, hy, List.filter_append, List.length_append] at hn ⊢
      simp [hye]
      omega
    · simp only [System.Sys.swap, ha, hy, List.filter_append, List.length_append] at hc ⊢
      simp [hyo]
      omega
    · obtain ⟨hlt, hnd⟩ := hd (by omega)
      have hid : (UInt64.ofNat (n + 3)).toNat = n + 3 := by
        rw [UInt64.toNat_ofNat']; exact Nat.mod_eq_of_lt (by omega)
      simp only [System.DistinctIds, System.Sys.swap, ha, hcr] at hlt hnd ⊢
      constructor
      · intro i hi
        simp only [List.append_assoc, List.mem_append, List.mem_singleton] at hi hlt
        rcases hi with hi | rfl | hi
        · have := hlt i (.inr hi); omega
        · rw [hid]; omega
        · have := hlt i (.inl hi); omega
      · have hnew : UInt64.ofNat (n + 3) ∉ s.a.created ++ s.b.created := by
          intro hm
          have := hlt _ hm
          rw [hid] at this
          omega
        have : (s.b.created ++ [UInt64.ofNat (n + 3)] ++ s.a.created).Perm
            (UInt64.ofNat (n + 3) :: (s.a.created ++ s.b.created)) := by
          rw [List.append_assoc, List.singleton_append]
          exact List.perm_middle.trans (List.Perm.cons _ List.perm_append_comm)
        exact this.nodup_iff.2 (List.nodup_cons.2 ⟨hnew, hnd⟩)

end Bromine.Props
