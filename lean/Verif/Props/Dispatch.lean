import Verif.Props.Endpoint
/-
C26-C29, C34, C36, C47 (one side), C51: handlers and the receive loop.
-/
namespace Bromine.Props
open Endpoint Spec

section
variable {CB : Type} {cfg : Config CB}

/-! ### C26 (continued) -/

/-- **C26.** An event for which no callback is registered is answered by an End event without payload, and nothing
else is emitted for it. -/
theorem C26_no_callback {s : State CB} (h : Reachable cfg s) {t : Nat} {k : Endpoint.Task CB} (hk : s.tasks t = some k)
    (hcb : k.cb = none) :
    (∀ res, k.phase = .done res true → ∃ a, emittedBy s k.conn (.final t) = [a] ∧ a.eventType = .end ∧ a.dataRaw = [] ∧
      a.referenceId = some k.event.id) ∧
    k.phase ≠ .crashed ∧ ∀ c, emittedBy s c (.task t) = [] := by
  refine ⟨fun res hp => ?_, ?_, fun c => ?_⟩
  · have hr := task_result h t k hk res (.inr ⟨true, .inr hp⟩)
    obtain ⟨⟨a, h1, h2⟩, _⟩ := C26_answered_once h hk hp
    refine ⟨a, h1, ?_⟩
    cases res with
    | error x => simp [resultPossible, hcb] at hr
    | ok b =>
      simp only [resultPossible, hcb, decide_eq_true_eq] at hr
      subst hr
      exact ⟨h2.2.2.1, h2.2.2.2.2, h2.1⟩
  · intro hp
    have : ∀ t k, s.tasks t = some k → k.phase = .crashed → k.cb ≠ none := by
      refine reachable_induction (P := fun s => ∀ t k, s.tasks t = some k → k.phase = .crashed → k.cb ≠ none)
        (by simp) ?_ h
      intro s op s' _ ih hs t k hk hp
      have hold := ih t
      cases hs with
      | respond t0 k0 res id hk0 hp0 =>
        rcases upd_some hk with ⟨rfl, rfl⟩ | ⟨_, hk⟩
        · cases res <;> simp [afterResponse] at hp
        · exact hold k hk hp
      | respondFail t0 k0 res hk0 hp0 =>
        rcases upd_some hk with ⟨rfl, rfl⟩ | ⟨_, hk⟩
        · cases res <;> simp [afterResponse] at hp
        · exact hold k hk hp
      | _ =>
        first
        | exact hold k hk hp
        | (rcases upd_some hk with ⟨rfl, rfl⟩ | ⟨_, hk⟩
           · simp_all
           · exact hold k hk hp)
    exact this t k hk hp hcb
  · simp only [emittedBy, List.map_eq_nil_iff, List.filter_eq_nil_iff, decide_eq_true_eq]
    intro x hx ho
    have := (outInv h).out c x hx
    rw [ho] at this
    obtain ⟨k', h1, _, h3, _⟩ := this
    rw [hk] at h1
    cases h1
    simp [userCallback, hcb] at h3

/-- **C16/C26.** Every event that an endpoint emits is an Initiator without reference (emitted on the connection), or
a Response (emitted with the context of a handler), or an End or Error event (an answer); the latter three refer to
exactly the event that is or was handled, and go out on the connection on which that was received. -/
theorem C26_emitted_refers {s : State CB} (h : Reachable cfg s) {c : Nat} {x : OutEntry} (hx : x ∈ s.out c) :
    (x.event.eventType = .initiator ∧ x.event.referenceId = none) ∨
    ∃ t k, s.tasks t = some k ∧ k.conn = c ∧ x.event.referenceId = some k.event.id ∧ k.event ∈ s.arrived c ∧
      ((x.origin = .task t ∧ x.event.eventType = .response) ∨
       (x.origin = .final t ∧ (x.event.eventType = .end ∨ x.event.eventType = .error))) := by
  have harr : ∀ t k, s.tasks t = some k → k.event ∈ s.arrived k.conn := by
    intro t k hk
    have h1 := taskEntries_eq h t
    rw [hk] at h1
    have hm : ({ conn := k.conn, event := k.event, dest := .handler t } : Entry) ∈ taskEntries s t := by
      rw [h1]; simp [taskEntry]
    have := handled_mem (List.mem_filter.1 hm).1
    rw [arrInv h]
    simp only [List.mem_append]
    exact .inl (.inl this)
  have ho := (outInv h).out c x hx
  rcases hxo : x.origin with _ | t | t
  · rw [hxo] at ho
    exact .inl ⟨ho.2, ho.1⟩
  · rw [hxo] at ho
    obtain ⟨k, h1, h2, h3, h4, h5⟩ := ho
    exact .inr ⟨t, k, h1, h2, h4, h2 ▸ harr t k h1, .inl ⟨rfl, h5⟩⟩
  · rw [hxo] at ho
    obtain ⟨k, res, id, h1, h2, h3, h4⟩ := ho
    refine .inr ⟨t, k, h1, h2, by rw [h3, finalEvent_ref], h2 ▸ harr t k h1, .inr ⟨rfl, ?_⟩⟩
    have := finalEvent_isAnswer (cfg := cfg) k res id
    rw [h3]
    cases res with
    | ok b => exact .inl this.2.2.1
    | error e => exact .inr this.2.2.1

/-- **C26: nothing else prevents the answer.** If writing the answer of a task never failed, then a task that has got past its handler has answered its event,
exactly once. -/
theorem C26_answered_unless_write_fails {s : State CB} {ops : List Op} (hrun : run cfg {} ops = some s) {t : Nat} (hw : .respondFail t ∉ ops)
    {k : Endpoint.Task CB} (hk : s.tasks t = some k) {res : Except Error Bytes} {sent : Bool} (hp : k.phase = .cleaning res sent ∨ k.phase = .done res sent) :
    ∃ a, emittedBy s k.conn (.final t) = [a] ∧ IsAnswer cfg.fmtDebug k.event res a := by
  have h0 : Reachable cfg ({} : State CB) := ⟨[], rfl⟩
  have hre : Reachable cfg s := ⟨ops, hrun⟩
  have key : ∀ k, s.tasks t = some k → ∀ res, k.phase ≠ .cleaning res false ∧ k.phase ≠ .done res false := by
    refine run_induction (P := fun s => ∀ k, s.tasks t = some k → ∀ res, k.phase ≠ .cleaning res false ∧ k.phase ≠ .done res false) h0 hrun (by simp) ?_
    intro s1 op s2 hm _ ih hs k hk res
    cases hs with
    | respond t0 k0 res0 id hk0 hp0 =>
      rcases upd_some hk with ⟨rfl, rfl⟩ | ⟨_, hk⟩
      · cases res0 <;> simp [afterResponse]
      · exact ih k hk res
    | respondFail t0 k0 res0 hk0 hp0 =>
      rcases upd_some hk with ⟨rfl, rfl⟩ | ⟨_, hk⟩
      · exact absurd hm hw
      · exact ih k hk res
    | cleanup t0 k0 res0 sent0 hk0 hp0 =>
      rcases upd_some hk with ⟨rfl, rfl⟩ | ⟨_, hk⟩
      · have := (ih k0 hk0 res0).1
        rw [hp0] at this
        refine ⟨by simp, ?_⟩
        rintro hh
        injection hh with hh1 hh2
        subst hh2
        exact this rfl
      · exact ih k hk res
    | _ =>
      first
      | exact ih k hk res
      | (rcases upd_some hk with ⟨rfl, rfl⟩ | ⟨_, hk⟩
         · simp
         · exact ih k hk res)
  cases sent with
  | false => rcases hp with hp | hp
             · exact absurd hp (key k hk res).1
             · exact absurd hp (key k hk res).2
  | true =>
    have := finals hre t k.conn
    rcases hp with hp | hp <;>
    · simp only [Finals, hk, hp, and_self, if_true] at this
      obtain ⟨id, h1⟩ := this
      exact ⟨_, h1, finalEvent_isAnswer k res id⟩

/-- **C26: the answer is never blocked.** Whatever a running handler returns, in whatever state the endpoint is: its answer can be written at once. -/
theorem C26_can_answer {s : State CB} {t : Nat} {k : Endpoint.Task CB} (hk : s.tasks t = some k) (hp : k.phase = .running)
    {cb : CB} (hcb : k.cb = some cb) (hd : cfg.isDefaultError cb = false) (res : Except Error Bytes) (id : UInt64) :
    ∃ s' a, run cfg s [.handlerDone t res, .respond t id] = some s' ∧ s'.out k.conn = s.out k.conn ++ [{ origin := .final t, event := a }] ∧ a.id = id ∧
      IsAnswer cfg.fmtDebug k.event res a := by
  have hr : resultPossible cfg k res = true := by simp [resultPossible, hcb, hd]
  simp only [run, step, hk, hp, hr, if_true, Option.bind_some, upd_apply]
  refine ⟨_, finalEvent cfg k res id, rfl, ?_, finalEvent_id _ _ _, finalEvent_isAnswer k res id⟩
  simp only [upd_apply, if_true]
  rw [finalEvent_congr (cfg := cfg) (k := k) (k' := { k with phase := .responding res }) rfl res id]

/-- A crashed task stays crashed. -/
theorem crashed_stays {s s' : State CB} {ops : List Op} (h : Reachable cfg s) {t : Nat} {k : Endpoint.Task CB}
    (hk : s.tasks t = some k) (hp : k.phase = .crashed) (hrun : run cfg s ops = some s') :
    ∃ k', s'.tasks t = some k' ∧ k'.phase = .crashed ∧ k'.event = k.event ∧ k'.conn = k.conn := by
  refine run_induction (P := fun s => ∃ k', s.tasks t = some k' ∧ k'.phase = .crashed ∧ k'.event = k.event ∧
    k'.conn = k.conn) h hrun ⟨k, hk, hp, rfl, rfl⟩ ?_
  intro s1 op s2 _ _ ⟨k1, g1, g2, g3, g4⟩ hs
  cases hs
  all_goals try exact ⟨k1, g1, g2, g3, g4⟩
  all_goals simp only [upd_apply]
  all_goals grind

/-- **C26 is violated by panics**: an event whose callback panics is never answered, however long one waits. -/
theorem C26_violated_panic {s s' : State CB} {ops : List Op} (h : Reachable cfg s) {t : Nat} {k : Endpoint.Task CB}
    (hk : s.tasks t = some k) (hp : k.phase = .crashed) (hrun : run cfg s ops = some s') :
    ∀ c, emittedBy s' c (.final t) = [] := by
  obtain ⟨k', h1, h2, _⟩ := crashed_stays h hk hp hrun
  exact C26_not_before (h.run hrun) h1 (.inr (.inr (.inl h2)))

/-- **C26 is violated by panics**, and nothing in the endpoint prevents them: in whatever state, a callback that is running may panic (except for the one for errors that bromine brings along).
The panic itself changes nothing else: no connection, no other task, no request. -/
theorem C26_violated_can_panic {s : State CB} {t : Nat} {k : Endpoint.Task CB} (hk : s.tasks t = some k) (hp : k.phase = .running)
    {cb : CB} (hcb : k.cb = some cb) (hd : cfg.isDefaultError cb = false) :
    ∃ s' k', run cfg s [.handlerPanic t] = some s' ∧ s'.tasks t = some k' ∧ k' = { k with phase := .crashed } ∧ (∀ t', t' ≠ t → s'.tasks t' = s.tasks t') ∧
      s'.out = s.out ∧ s'.inbox = s.inbox ∧ s'.arrived = s.arrived ∧ s'.loop = s.loop ∧ s'.reqs = s.reqs ∧ s'.listeners = s.listeners ∧ s'.processed = s.processed := by
  simp only [run, step, hk, hp, hcb, hd]
  refine ⟨_, _, rfl, by simp, rfl, fun t' h => by simp [h], rfl, rfl, rfl, rfl, rfl, rfl, rfl⟩

/-- The cases of C26: a handler that emits and succeeds, one that fails, one that panics, and an event without
handler. -/
example : ∃ s, run demo {} [.arrive 0 (peerEvent 1 none "ping" .initiator none), .arrive 0 (peerEvent 2 none "ping" .initiator none),
    .arrive 0 (peerEvent 3 none "ping" .initiator none), .arrive 0 (peerEvent 4 none "?" .initiator none),
    .take 0 1, .take 0 2, .take 0 3, .take 0 4, .handlerDone 4 (.ok []), .handlerPanic 3, .emit (.task 1) none "a" [1] 50,
    .handlerDone 2 (.error .corruptedEvent), .respond 2 51, .handlerDone 1 (.ok [9]), .respond 1 52, .respond 4 53,
    .cleanup 1, .cleanup 4] = some s ∧
    s.out 0 = [⟨.task 1, Event.new 50 none "a" [1] (some 1) .response⟩,
      ⟨.final 2, Event.new 51 none "error" [1, 244, 0, 0, 0, 6, 102, 97, 105, 108, 101, 100] (some 2) .error⟩,
      ⟨.final 1, Event.new 52 none "end" [9] (some 1) .end⟩, ⟨.final 4, Event.new 53 none "end" [] (some 4) .end⟩] := by
  refine ⟨_, rfl, ?_⟩
  decide +kernel

/-! ### C27 routing -/

/-- **C27.** A received event that refers to no request of its connection's listener map, and is not an End event, is
given to the callback registered for its name: in its namespace if that is registered, otherwise globally. -/
theorem C27_routing {s s' : State CB} (h : Reachable cfg s) {c t : Nat} {e : Event} {rest : List Event}
    (hi : s.inbox c = e :: rest)
    (hno : ∀ r q d, s.reqs r = some q → answers cfg q { conn := c, event := e, dest := d } = false)
    (hty : e.eventType ≠ .end) (hstep : step cfg s (.take c t) = some s') :
    ∃ k, s'.tasks t = some k ∧ k.conn = c ∧ k.event = e ∧ k.cb = registered cfg e ∧ k.phase = .running := by
  have hn : ∀ id, e.referenceId = some id → s.listeners (cfg.group c) id = none := by
    intro id hid
    cases hl : s.listeners (cfg.group c) id with
    | none => rfl
    | some r =>
      obtain ⟨q, h1, h2, h3⟩ := (refInv h).listener _ _ _ hl
      have := hno r q .discarded h1
      simp [answers, hid, h2, h3] at this
  have hs := stepR_of_step hstep
  have key : ∃ k, s'.tasks t = some k ∧ k.conn = c ∧ k.event = e ∧ k.phase = .running ∧ k.cb =
      match e.ns.bind fun n => cfg.namespaces.get n with
        | some ns => ns.handler.callback e.name
        | none => cfg.global.callback e.name := by
    cases hs with
    | takeListener c t e0 rest0 r id hl hi0 hid hr =>
      rw [hi] at hi0; cases hi0; rw [hn id hid] at hr; cases hr
    | takeDiscard c t e0 rest0 hl hi0 hn0 hty0 => rw [hi] at hi0; cases hi0; exact absurd hty0 hty
    | takeHandler c e0 rest0 cb t hl hi0 hn0 hty0 hcb ht =>
      rw [hi] at hi0
      cases hi0
      exact ⟨_, by simp; rfl, rfl, rfl, rfl, hcb⟩
  obtain ⟨k, h1, h2, h3, h4, h5⟩ := key
  refine ⟨k, h1, h2, h3, ?_, h4⟩
  rw [h5]
  simp only [registered]
  cases e.ns with
  | none => rfl
  | some n => simp only [Option.bind_some]; cases cfg.namespaces.get n <;> rfl

/-- **C27.** The callback run for a received event is the registered one, except that replies to requests that have
ended without having been completed are always given to the global handlers. -/
theorem C27_callback {s : State CB} (h : Reachable cfg s) {t : Nat} {k : Endpoint.Task CB} (hk : s.tasks t = some k) :
    k.cb = registered cfg k.event ∨
    (k.cb = cfg.global.callback k.event.name ∧ ∃ r q, s.reqs r = some q ∧ (∃ how, q.phase = .finished how) ∧
      k.event.referenceId = some q.event.id ∧ cfg.group q.conn = cfg.group k.conn) := by
  rcases task_callback h t k hk with h1 | ⟨h1, r, q, h2, h3, h4⟩
  · exact .inl h1.1
  · refine .inr ⟨h1, r, q, h2, ?_, h4⟩
    cases hp : q.phase with
    | finished how => exact ⟨how, rfl⟩
    | _ => simp [Req.alive, hp] at h3

/-- **C27: SPECIFICATION.md is violated.** An event for a namespace that is not registered is not ignored but given to
the global handler of its name. -/
theorem C27_violated_spec : ∃ (s : State Nat) (k : Endpoint.Task Nat), Reachable demo s ∧ s.tasks 0 = some k ∧
    k.event.ns = some "nowhere" ∧ demo.namespaces.get "nowhere" = none ∧ k.cb = some 1 := by
  refine ⟨_, _, ⟨[.arrive 0 (peerEvent 1 (some "nowhere") "ping" .initiator none), .take 0 0], rfl⟩, rfl, rfl, rfl, ?_⟩
  decide +kernel

example : ∃ (s : State Nat) (k : Endpoint.Task Nat), Reachable demo s ∧ s.tasks 0 = some k ∧ k.event.ns = some "ns" ∧ k.cb = some 2 := by
  refine ⟨_, _, ⟨[.arrive 0 (peerEvent 1 (some "ns") "ping" .initiator none), .take 0 0], rfl⟩, rfl, rfl, ?_⟩
  decide +kernel

/-! ### C28 every event is dispatched exactly once, in order -/

/-- **C28.** What has arrived on a connection is, in this order: the events that have been dealt with, the one event
that the receive loop holds (while it waits for room in a channel), and the events not yet taken. -/
theorem C28_in_order {s : State CB} (h : Reachable cfg s) (c : Nat) :
    s.arrived c = handledOn s c ++ held (s.loop c) ++ s.inbox c := arrInv h c

/-- **C28.** Dealing with an event means exactly one of: delivered to one request, given to one handler task, or
discarded if it is an End event; and conversely every handler task was made for exactly one received event. -/
theorem C28_exactly_once {s : State CB} (h : Reachable cfg s) :
    (∀ x ∈ s.processed,
      (∃ r q, x.dest = .reply r ∧ s.reqs r = some q ∧ answers cfg q x = true) ∨
      (∃ t k, x.dest = .handler t ∧ s.tasks t = some k ∧ k.event = x.event ∧ k.conn = x.conn) ∨
      (x.dest = .discarded ∧ x.event.eventType = .end)) ∧
    (∀ t k, s.tasks t = some k →
      (s.processed.filter fun x => decide (x.dest = .handler t)) = [{ conn := k.conn, event := k.event, dest := .handler t }]) ∧
    (∀ r q, s.reqs r = some q →
      (s.processed.filter fun x => decide (x.dest = .reply r)).map (·.event) = q.popped ++ q.buf) := by
  refine ⟨?_, ?_, ?_⟩
  · intro x hx
    rcases hd : x.dest with r | t | _
    · obtain ⟨q, h1, h2, h3⟩ := (refInv h).reply x hx r hd
      exact .inl ⟨r, q, rfl, h1, by simp [answers, h2, h3]⟩
    · have h1 := taskEntries_eq h t
      have hm : x ∈ taskEntries s t := by simp [taskEntries, hx, hd]
      rw [h1] at hm
      cases hk : s.tasks t with
      | none => simp [hk, taskEntry] at hm
      | some k =>
        simp only [hk, taskEntry, List.mem_singleton] at hm
        exact .inr (.inl ⟨t, k, rfl, hk, by rw [hm], by rw [hm]⟩)
    · refine .inr (.inr ⟨rfl, ?_⟩)
      have : ∀ x ∈ s.processed, x.dest = .discarded → x.event.eventType = .end := by
        refine reachable_induction (P := fun s => ∀ x ∈ s.processed, x.dest = .discarded → x.event.eventType = .end)
          (by simp) ?_ h
        intro s op s' _ ih hs x hx
        have hold := ih x
        cases hs
        all_goals try exact hold hx
        all_goals simp only [List.mem_append, List.mem_singleton] at hx
        all_goals grind
      exact this x hx hd
  · intro t k hk
    have h1 := taskEntries_eq h t
    rw [hk] at h1
    exact h1
  · intro r q hq
    exact ((reqInv h).account r q hq).symm

/-- **C28.** A reply to a request that is waiting never reaches a handler. -/
theorem C28_reply_not_handled {s : State CB} (h : Reachable cfg s) (hf : FreshIds cfg s) {r : Nat} {q : Req}
    (hq : s.reqs r = some q) (ha : q.alive = true) {t : Nat}
    {x : Entry} (hx : x ∈ s.processed.drop q.regAt) (hd : x.dest = .handler t) :
    answers cfg q x = false := by
  obtain ⟨B, C, h1, h2, h3, h4⟩ := fresh_window h hf r q hq
  rw [h1, h4 ha, List.append_nil] at hx
  refine Bool.eq_false_iff.2 fun hans => ?_
  rw [h2 x hx hans] at hd
  cases hd

/-! ### C29 End events -/

/-- **C29.** An End event that refers to no request is dropped: no task, no event, no other effect. -/
theorem C29_discarded {s s' : State CB} (h : Reachable cfg s) {c t : Nat} {e : Event} {rest : List Event}
    (hi : s.inbox c = e :: rest)
    (hno : ∀ r q d, s.reqs r = some q → answers cfg q { conn := c, event := e, dest := d } = false)
    (hty : e.eventType = .end) (hstep : step cfg s (.take c t) = some s') :
    s'.out = s.out ∧ s'.tasks = s.tasks ∧ s'.reqs = s.reqs ∧ s'.listeners = s.listeners ∧ s'.loop = s.loop ∧
    s'.processed = s.processed ++ [{ conn := c, event := e, dest := .discarded }] := by
  have hn : ∀ id, e.referenceId = some id → s.listeners (cfg.group c) id = none := by
    intro id hid
    cases hl : s.listeners (cfg.group c) id with
    | none => rfl
    | some r =>
      obtain ⟨q, h1, h2, h3⟩ := (refInv h).listener _ _ _ hl
      have := hno r q .discarded h1
      simp [answers, hid, h2, h3] at this
  have hs := stepR_of_step hstep
  cases hs with
  | takeListener c t e0 rest0 r id hl hi0 hid hr =>
    rw [hi] at hi0; cases hi0; rw [hn id hid] at hr; cases hr
  | takeHandler c e0 rest0 cb t hl hi0 hn0 hty0 hcb ht => rw [hi] at hi0; cases hi0; exact absurd hty hty0
  | takeDiscard c t e0 rest0 hl hi0 hn0 hty0 =>
    rw [hi] at hi0
    cases hi0
    exact ⟨rfl, rfl, rfl, rfl, rfl, rfl⟩

/-- **C29.** An End event is only ever given to a handler (and so answered) if it refers to a
request that has ended. -/
theorem C29_end_unanswered {s : State CB} (h : Reachable cfg s) {t : Nat} {k : Endpoint.Task CB}
    (hk : s.tasks t = some k) (hty : k.event.eventType = .end) :
    ∃ r q, s.reqs r = some q ∧ (∃ how, q.phase = .finished how) ∧ k.event.referenceId = some q.event.id ∧
      cfg.group q.conn = cfg.group k.conn := by
  rcases task_callback h t k hk with h1 | ⟨h1, r, q, h2, h3, h4⟩
  · exact absurd hty h1.2
  · refine ⟨r, q, h2, ?_, h4⟩
    cases hp : q.phase with
    | finished how => exact ⟨how, rfl⟩
    | _ => simp [Req.alive, hp] at h3

/-- **C29 is violated**: the End event that answers a timed-out request is itself answered by an End event. -/
theorem C29_violated : ∃ (s : State Nat) (k : Endpoint.Task Nat), Reachable demo s ∧ s.tasks 5 = some k ∧
    k.event.eventType = .end ∧
    s.out 0 = [⟨.conn, Event.new 7 none "q" [] none .initiator⟩, ⟨.final 5, Event.new 8 none "end" [] (some 20) .end⟩] := by
  refine ⟨_, _, ⟨opsRequest .single ++ [.timeout 0, .arrive 0 (peerEvent 20 none "end" .end (some 7)),
    .take 0 5, .deliver 0 5, .handlerDone 5 (.ok []), .respond 5 8, .cleanup 5], rfl⟩, rfl, rfl, ?_⟩
  decide +kernel

/-- **C29, exactly**: as long as ids are not reused, an End event that is read is discarded if and only if every request of this side that it refers to has got
its last reply. In all other cases it is offered to the request. -/
theorem C29_discarded_iff {s s' : State CB} (h : Reachable cfg s) (hf : FreshIds cfg s) {c t : Nat} {e : Event} {rest : List Event}
    (hi : s.inbox c = e :: rest) (hty : e.eventType = .end) (hstep : step cfg s (.take c t) = some s') :
    (s'.processed = s.processed ++ [{ conn := c, event := e, dest := .discarded }] ∧ s'.loop c = .idle ↔
      ∀ r q d, s.reqs r = some q → answers cfg q { conn := c, event := e, dest := d } = true → q.phase = .finished .replied) ∧
    ∀ r q d, s.reqs r = some q → answers cfg q { conn := c, event := e, dest := d } = true → q.phase ≠ .finished .replied →
      s'.loop c = .sending r e ∧ s'.processed = s.processed ∧ s'.tasks = s.tasks ∧ s'.out = s.out := by
  have key : ∀ r q d, s.reqs r = some q → answers cfg q { conn := c, event := e, dest := d } = true → q.phase ≠ .finished .replied →
      s'.loop c = .sending r e ∧ s'.processed = s.processed ∧ s'.tasks = s.tasks ∧ s'.out = s.out := by
    intro r q d hq ha hp
    simp only [answers, Bool.and_eq_true, decide_eq_true_eq] at ha
    have hl := (C24_listener_iff h hf hq).2 hp
    have hs := stepR_of_step hstep
    cases hs with
    | takeListener c t e0 rest0 r0 id hl0 hi0 hid hr =>
      rw [hi] at hi0; cases hi0
      rw [ha.1] at hid; cases hid
      rw [ha.2, hl] at hr; cases hr
      exact ⟨by simp, rfl, rfl, rfl⟩
    | takeHandler c e0 rest0 cb t hl0 hi0 hn0 hty0 hcb ht => rw [hi] at hi0; cases hi0; exact absurd hty hty0
    | takeDiscard c t e0 rest0 hl0 hi0 hn0 hty0 =>
      rw [hi] at hi0; cases hi0
      have := hn0 _ ha.1
      rw [ha.2, hl] at this; cases this
  refine ⟨⟨fun hd r q d hq ha => ?_, fun hall => ?_⟩, key⟩
  · by_cases hp : q.phase = .finished .replied
    · exact hp
    · have := (key r q d hq ha hp).1
      rw [hd.2] at this; cases this
  · have hs := stepR_of_step hstep
    cases hs with
    | takeListener c t e0 rest0 r0 id hl0 hi0 hid hr =>
      rw [hi] at hi0; cases hi0
      obtain ⟨q, h1, h2, h3⟩ := (refInv h).listener _ _ _ hr
      have hp := hall r0 q .discarded h1 (by simp [answers, hid, h2, h3])
      exact absurd hr (finished_unlistened h r0 q h1 hp _ _)
    | takeHandler c e0 rest0 cb t hl0 hi0 hn0 hty0 hcb ht => rw [hi] at hi0; cases hi0; exact absurd hty hty0
    | takeDiscard c t e0 rest0 hl0 hi0 hn0 hty0 =>
      rw [hi] at hi0; cases hi0
      exact ⟨rfl, hl0⟩

/-- **C29 is violated by a race, without any timeout**: the handler of the peer emits a response to an `await_reply` and then ends. If the End event is read while
`await_reply` is about to return with the response, the End event is given to the global handler and answered by an End event. -/
theorem C29_violated_race : ∃ (s : State Nat) (k : Endpoint.Task Nat) (q : Req), Reachable demo s ∧
    s.reqs 0 = some q ∧ q.phase = .finished .replied ∧ q.popped = [peerEvent 20 none "b" .response (some 7)] ∧
    s.arrived 0 = [peerEvent 20 none "b" .response (some 7), peerEvent 21 none "end" .end (some 7)] ∧
    s.tasks 5 = some k ∧ k.event = peerEvent 21 none "end" .end (some 7) ∧
    s.out 0 = [⟨.conn, Event.new 7 none "q" [] none .initiator⟩, ⟨.final 5, Event.new 8 none "end" [] (some 21) .end⟩] := by
  refine ⟨_, _, _, ⟨opsRequest .single ++ [.arrive 0 (peerEvent 20 none "b" .response (some 7)), .arrive 0 (peerEvent 21 none "end" .end (some 7)),
    .take 0 0, .deliver 0 0, .take 0 0, .recv 0, .finish 0, .deliver 0 5, .handlerDone 5 (.ok []), .respond 5 8], rfl⟩, rfl, rfl, ?_, ?_, rfl, rfl, ?_⟩ <;>
  decide +kernel

/-! ### C34 stop -/

/-- **C34.** `stop` always succeeds; it does not touch tasks, requests or what has been emitted; on a context of a
server it does nothing at all. -/
theorem C34_stop_succeeds (s : State CB) (c : Nat) : ∃ s', step cfg s (.stop c) = some s' ∧ s'.tasks = s.tasks ∧
    s'.reqs = s.reqs ∧ s'.out = s.out ∧ s'.processed = s.processed ∧ (cfg.client c = true → s'.stopped c = true) ∧
    (cfg.client c = false → s' = s) := by
  refine ⟨_, rfl, ?_⟩
  cases cfg.client c <;> simp

/-- **C34.** After `stop` the receive loop can always be ended (the runtime then does so); this leaves running
handlers, requests and everything emitted as they are. -/
theorem C34_abort_takes_effect {s : State CB} {c : Nat} (hst : s.stopped c = true) (hl : ∀ lost, s.loop c ≠ .ended lost) :
    ∃ s', step cfg s (.abort c) = some s' ∧ (∃ lost, s'.loop c = .ended lost) ∧ s'.tasks = s.tasks ∧ s'.reqs = s.reqs ∧
      s'.out = s.out ∧ s'.processed = s.processed := by
  cases h : s.loop c with
  | idle =>
    simp only [step, hst, if_true, h]
    exact ⟨_, rfl, ⟨none, by simp⟩, rfl, rfl, rfl, rfl⟩
  | sending r e =>
    simp only [step, hst, if_true, h]
    exact ⟨_, rfl, ⟨some e, by simp⟩, rfl, rfl, rfl, rfl⟩
  | ended lost => exact absurd h (hl lost)

/-- **C34.** Once the receive loop of a connection has ended, no event received on it is dispatched any more, whatever
happens, and the loop does not come back. -/
theorem C34_nothing_dispatched_after {s s' : State CB} {ops : List Op} (h : Reachable cfg s) {c : Nat}
    {lost : Option Event} (hl : s.loop c = .ended lost) (hrun : run cfg s ops = some s') :
    s'.loop c = .ended lost ∧ (s'.processed.filter fun x => decide (x.conn = c)) = s.processed.filter fun x => decide (x.conn = c) := by
  refine run_induction (P := fun s' => s'.loop c = .ended lost ∧
    (s'.processed.filter fun x => decide (x.conn = c)) = s.processed.filter fun x => decide (x.conn = c)) h hrun ⟨hl, rfl⟩ ?_
  intro s1 op s2 _ _ ⟨g1, g2⟩ hs
  rw [← g2]
  cases hs
  all_goals try exact ⟨g1, rfl⟩
  all_goals simp only [List.filter_append, upd_apply]
  all_goals grind

/-- **C34: nothing else ends a receive loop.** A receive loop ends only after `stop` on its connection, or because reading failed; in the latter case everything that
had arrived before has been dispatched. -/
theorem C34_only_stop_ends {s s' : State CB} (h : Reachable cfg s) {op : Endpoint.Op} (hstep : step cfg s op = some s') {c : Nat} {lost : Option Event}
    (hl : ∀ lost, s.loop c ≠ .ended lost) (hl' : s'.loop c = .ended lost) :
    (s.stopped c = true ∧ s'.stopped c = true) ∨ (op = .readEnd c ∧ lost = none ∧ handledOn s' c = s'.arrived c) := by
  have hs := stepR_of_step hstep
  have hr' := arrInv (h.step hstep) c
  cases hs with
  | readEnd c0 hl0 hi0 =>
    by_cases hc : c = c0
    · subst hc
      simp only [upd_apply, if_true, Loop.ended.injEq] at hl'
      subst hl'
      refine .inr ⟨rfl, rfl, ?_⟩
      rw [hr']
      simp [held, hi0]
    · simp only [upd_apply, hc, if_false] at hl'
      exact absurd hl' (hl _)
  | abortIdle c0 hl0 hst =>
    by_cases hc : c = c0
    · subst hc; exact .inl ⟨hst, hst⟩
    · simp only [upd_apply, hc, if_false] at hl'
      exact absurd hl' (hl _)
  | abortSending c0 r e hl0 hst =>
    by_cases hc : c = c0
    · subst hc; exact .inl ⟨hst, hst⟩
    · simp only [upd_apply, hc, if_false] at hl'
      exact absurd hl' (hl _)
  | takeListener c0 t e rest r id hl0 =>
    by_cases hc : c = c0
    · subst hc; simp at hl'
    · simp only [upd_apply, hc, if_false] at hl'
      exact absurd hl' (hl _)
  | deliver c0 t r e q hl0 =>
    by_cases hc : c = c0
    · subst hc; simp at hl'
    · simp only [upd_apply, hc, if_false] at hl'
      exact absurd hl' (hl _)
  | deliverDead c0 r e q t hl0 =>
    by_cases hc : c = c0
    · subst hc; simp at hl'
    · simp only [upd_apply, hc, if_false] at hl'
      exact absurd hl' (hl _)
  | _ => exact absurd hl' (hl _)

/-- **C34: only `stop` sets the mark that stops a connection**, and only that of its own connection. -/
theorem C34_only_stop_stops {s s' : State CB} {op : Endpoint.Op} (hstep : step cfg s op = some s') {c : Nat} (h1 : s.stopped c = false)
    (h2 : s'.stopped c = true) : op = .stop c ∧ cfg.client c = true := by
  have hs := stepR_of_step hstep
  cases hs with
  | stop c0 hc0 =>
    by_cases hc : c = c0
    · subst hc; exact ⟨rfl, hc0⟩
    · simp only [upd_apply, hc, if_false] at h2
      rw [h1] at h2; cases h2
  | _ => simp only [h1] at h2; cases h2

/-- **C34: stopping is not immediate.** Between the return of `stop` and the end of the receive loop another event can
be dispatched. -/
theorem C34_violated : ∃ (s s' : State Nat) (k : Endpoint.Task Nat), Reachable demo s ∧ s.stopped 0 = true ∧ s.processed = [] ∧
    run demo s [.take 0 0] = some s' ∧ s'.tasks 0 = some k := by
  refine ⟨_, _, _, ⟨[.arrive 0 (peerEvent 1 none "ping" .initiator none), .stop 0], rfl⟩, rfl, rfl, rfl, rfl⟩

/-- A client that has been stopped while a handler was running: the handler still answers. -/
example : ∃ s, run demo {} [.arrive 0 (peerEvent 1 none "ping" .initiator none), .take 0 0, .stop 0, .stop 0, .abort 0,
    .arrive 0 (peerEvent 2 none "ping" .initiator none), .handlerDone 0 (.ok []), .respond 0 9, .cleanup 0] = some s ∧
    s.out 0 = [⟨.final 0, Event.new 9 none "end" [] (some 1) .end⟩] := ⟨_, rfl, by decide +kernel⟩

/-! ### C36 isolation of connections -/

/-- **C36.** If every connection has its own listener map (as on a server), a request only receives events that came
in on the connection on which it was emitted. -/
theorem C36_isolated {s : State CB} (h : Reachable cfg s) (hg : ∀ c c', cfg.group c = cfg.group c' → c = c')
    {r : Nat} {q : Req} (hq : s.reqs r = some q) :
    (∀ x ∈ s.processed, x.dest = .reply r → x.conn = q.conn) ∧ ∀ e ∈ q.popped ++ q.buf, e ∈ s.arrived q.conn := by
  have main : ∀ x ∈ s.processed, x.dest = .reply r → x.conn = q.conn := by
    intro x hx hd
    obtain ⟨q', h1, h2, h3⟩ := (refInv h).reply x hx r hd
    rw [hq] at h1
    cases h1
    exact (hg _ _ h3).symm
  refine ⟨main, fun e he => ?_⟩
  rw [(reqInv h).account r q hq] at he
  simp only [delivered, List.mem_map, List.mem_filter, decide_eq_true_eq] at he
  obtain ⟨x, ⟨hx, hd⟩, rfl⟩ := he
  rw [← main x hx hd, arrInv h]
  simp [handled_mem hx]

example : ∀ c c', demo.group c = demo.group c' → c = c' := fun _ _ h => h

/-- On the contrary the connections of a pooled client share their listeners: a reply received on connection 1 is
delivered to a request emitted on connection 0. -/
theorem C36_pool_shares : ∃ (s : State Nat) (q : Req), Reachable demoPool s ∧ s.reqs 0 = some q ∧ q.conn = 0 ∧
    q.popped = [peerEvent 20 none "a" .response (some 7)] ∧
    s.arrived 1 = [peerEvent 20 none "a" .response (some 7)] ∧ s.arrived 0 = [] := by
  refine ⟨_, _, ⟨opsRequest .single ++ [.arrive 1 (peerEvent 20 none "a" .response (some 7)), .take 1 0, .deliver 1 0,
    .recv 0], rfl⟩, rfl, rfl, rfl, rfl, rfl⟩

/-! ### C47 (one side) the default error handler -/

/-- **C47.** An event with a well-formed error payload handled by the default error handler is answered by an End event
without payload and nothing else. -/
theorem C47_default_error_handler {s : State CB} (h : Reachable cfg s) {t : Nat} {k : Endpoint.Task CB}
    (hk : s.tasks t = some k) {cb : CB} (hcb : k.cb = some cb) (hd : cfg.isDefaultError cb = true)
    {d : ErrorEventData} (hpay : k.event.payload errorPayload = .ok d) :
    (∀ res, k.phase = .done res true → ∃ a, emittedBy s k.conn (.final t) = [a] ∧ a.eventType = .end ∧ a.dataRaw = [] ∧
      a.referenceId = some k.event.id) ∧
    ∀ c, emittedBy s c (.task t) = [] := by
  refine ⟨fun res hp => ?_, fun c => ?_⟩
  · have hr := task_result h t k hk res (.inr ⟨true, .inr hp⟩)
    obtain ⟨⟨a, h1, h2⟩, _⟩ := C26_answered_once h hk hp
    refine ⟨a, h1, ?_⟩
    cases res with
    | error x => simp [resultPossible, hcb, hd, hpay] at hr
    | ok b =>
      simp only [resultPossible, hcb, hd, hpay, if_true, decide_eq_true_eq] at hr
      subst hr
      exact ⟨h2.2.2.1, h2.2.2.2.2, h2.1⟩
  · simp only [emittedBy, List.map_eq_nil_iff, List.filter_eq_nil_iff, decide_eq_true_eq]
    intro x hx ho
    have := (outInv h).out c x hx
    rw [ho] at this
    obtain ⟨k', h1, _, h3, _⟩ := this
    rw [hk] at h1
    cases h1
    simp [userCallback, hcb, hd] at h3

/-! ### C51 closed channels, lost connections -/

/-- **C51.** As long as ids are not reused, no request ends because its channel was closed: `await_reply` never
returns `SendError` and a reply stream never ends with `None` before its End event. -/
theorem C51_never_closed {s : State CB} (h : Reachable cfg s) (hf : FreshIds cfg s) {r : Nat} {q : Req}
    (hq : s.reqs r = some q) : q.phase ≠ .finished .closed ∧ q.phase ≠ .closing none :=
  ⟨(fresh_listener h hf r q hq).2.2, (fresh_listener h hf r q hq).2.1⟩

/-- **C51.** After the connection is lost (and, for pooled clients, all connections of the pool), a request without an
unread reply gets none any more: it waits until its timeout fires or it is dropped. -/
theorem C51_lost_connection {s s' : State CB} {ops : List Op} (h : Reachable cfg s) {r : Nat} {q q' : Req}
    (hq : s.reqs r = some q) (hp : q.phase = .waiting) (hb : q.buf = [])
    (hl : ∀ c, cfg.group c = cfg.group q.conn → ∃ lost, s.loop c = .ended lost) (hrun : run cfg s ops = some s')
    (hf : FreshIds cfg s') (hq' : s'.reqs r = some q') :
    q'.popped = q.popped ∧ (q'.phase = .waiting ∨ q'.phase = .finished .timeout ∨ q'.phase = .finished .dropped) := by
  have := run_induction (P := fun s' => (FreshIds cfg s' → ∃ q', s'.reqs r = some q' ∧ q'.popped = q.popped ∧ q'.buf = [] ∧
      q'.conn = q.conn ∧ (q'.phase = .waiting ∨ q'.phase = .finished .timeout ∨ q'.phase = .finished .dropped)) ∧
      ∀ c, cfg.group c = cfg.group q.conn → ∃ lost, s'.loop c = .ended lost) h hrun
    ⟨fun _ => ⟨q, hq, rfl, hb, rfl, .inl hp⟩, hl⟩ (by
    intro s1 op s2 _ hre ⟨g1, g2⟩ hs
    constructor
    · intro hf2
      have hfs := hf2.of_ext hs.ext
      obtain ⟨q1, h1, h2, h3, h4, h5⟩ := g1 hfs
      have hnc := fresh_listener hre hfs
      have hri := refInv hre
      cases hs with
      | deliver c t r0 e q0 hl0 hq0 ha hb0 =>
        have hne : r ≠ r0 := by
          rintro rfl
          obtain ⟨q2, a1, a2, a3⟩ := hri.sending c r e hl0
          rw [h1] at a1
          cases a1
          obtain ⟨lost, hlost⟩ := g2 c (by rw [← a3, h4])
          rw [hl0] at hlost
          cases hlost
        exact ⟨q1, by simp [hne, h1], h2, h3, h4, h5⟩
      | chanClosed r0 q0 hq0 hp0 hb0 hl0 hcl ph hph =>
        exact absurd ((hnc r0 q0 hq0).1 (by simp [hp0])) hl0
      | _ =>
        first
        | exact ⟨q1, h1, h2, h3, h4, h5⟩
        | (simp only [upd_apply]
           grind)
    · intro c hc
      obtain ⟨lost, hlost⟩ := g2 c hc
      cases hs
      all_goals try exact ⟨lost, hlost⟩
      all_goals simp only [upd_apply]
      all_goals grind)
  obtain ⟨q1, h1, h2, _, _, h5⟩ := this.1 hf
  rw [hq'] at h1
  cases h1
  exact ⟨h2, h5⟩

example : ∃ (s : State Nat) (q : Req), Reachable demo s ∧ s.reqs 0 = some q ∧ q.phase = .waiting ∧ q.buf = [] ∧ s.loop 0 = .ended none := by
  refine ⟨_, _, ⟨opsRequest .single ++ [.readEnd 0], rfl⟩, rfl, rfl, rfl, rfl⟩

end
end Bromine.Props
