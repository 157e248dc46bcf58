import Verif.Model.Endpoint
/-
The steps of an endpoint as a relation, one constructor per way a step can go (helper for the proofs).
-/
namespace Bromine.Endpoint

@[simp] theorem upd_apply {α β : Type} [DecidableEq α] (f : α → β) (a : α) (b : β) (x : α) :
    upd f a b x = if x = a then b else f x := rfl

section
variable {CB : Type} (cfg : Config CB)

/-- All the ways a step can go. -/
inductive StepR (s : State CB) : Op → State CB → Prop
  | arrive (c : Nat) (e : Event) :
      StepR s (.arrive c e) { s with inbox := upd s.inbox c (s.inbox c ++ [e]), arrived := upd s.arrived c (s.arrived c ++ [e]) }
  | takeListener (c t : Nat) (e : Event) (rest : List Event) (r : Nat) (id : UInt64) (hl : s.loop c = .idle)
      (hi : s.inbox c = e :: rest) (hid : e.referenceId = some id) (hr : s.listeners (cfg.group c) id = some r) :
      StepR s (.take c t) { s with inbox := upd s.inbox c rest, loop := upd s.loop c (.sending r e), clones := upd s.clones r (s.clones r + 1) }
  | takeDiscard (c t : Nat) (e : Event) (rest : List Event) (hl : s.loop c = .idle) (hi : s.inbox c = e :: rest)
      (hn : ∀ id, e.referenceId = some id → s.listeners (cfg.group c) id = none) (hty : e.eventType = .end) :
      StepR s (.take c t) { s with inbox := upd s.inbox c rest, processed := s.processed ++ [{ conn := c, event := e, dest := .discarded }] }
  | takeHandler (c : Nat) (e : Event) (rest : List Event) (cb : Option CB) (t : Nat) (hl : s.loop c = .idle)
      (hi : s.inbox c = e :: rest) (hn : ∀ id, e.referenceId = some id → s.listeners (cfg.group c) id = none)
      (hty : e.eventType ≠ .end)
      (hcb : cb = match e.ns.bind fun n => cfg.namespaces.get n with
        | some ns => ns.handler.callback e.name
        | none => cfg.global.callback e.name)
      (ht : s.tasks t = none) :
      StepR s (.take c t) { s with inbox := upd s.inbox c rest, tasks := upd s.tasks t (some { conn := c, event := e, cb := cb, phase := .running }), processed := s.processed ++ [{ conn := c, event := e, dest := .handler t }] }
  | deliver (c t : Nat) (r : Nat) (e : Event) (q : Req) (hl : s.loop c = .sending r e) (hq : s.reqs r = some q)
      (ha : q.alive = true) (hb : q.buf.length < 8) :
      StepR s (.deliver c t) { s with loop := upd s.loop c .idle, clones := upd s.clones r (s.clones r - 1), reqs := upd s.reqs r (some { q with buf := q.buf ++ [e] }), processed := s.processed ++ [{ conn := c, event := e, dest := .reply r }] }
  | deliverDead (c : Nat) (r : Nat) (e : Event) (q : Req) (t : Nat) (hl : s.loop c = .sending r e)
      (hq : s.reqs r = some q) (ha : q.alive = false) (ht : s.tasks t = none) :
      StepR s (.deliver c t) { s with loop := upd s.loop c .idle, clones := upd s.clones r (s.clones r - 1), tasks := upd s.tasks t (some { conn := c, event := e, cb := cfg.global.callback e.name, phase := .running }), processed := s.processed ++ [{ conn := c, event := e, dest := .handler t }] }
  | request (r : Nat) (ctx : Ctx) (c : Nat) (ref : Option UInt64) (kind : ReqKind) (ns : Option String) (name : String)
      (payload : Bytes) (id : UInt64) (hr : s.reqs r = none) (hc : ctxOf cfg s ctx = some (c, ref)) :
      StepR s (.request r ctx kind ns name payload id) { s with
        reqs := upd s.reqs r (some { kind := kind, conn := c, origin := ctx.origin, event := ctxEvent ref ns name payload id, phase := .registered, buf := [], popped := [], regAt := s.processed.length }), listeners := upd s.listeners (cfg.group c) (upd (s.listeners (cfg.group c)) id (some r)), created := s.created ++ [id] }
  | sent (r : Nat) (q : Req) (hq : s.reqs r = some q) (hp : q.phase = .registered) :
      StepR s (.sent r) { s with reqs := upd s.reqs r (some { q with phase := .waiting }), out := upd s.out q.conn (s.out q.conn ++ [{ origin := q.origin, event := q.event }]) }
  | sendFail (r : Nat) (q : Req) (hq : s.reqs r = some q) (hp : q.phase = .registered) :
      StepR s (.sendFail r) { s with reqs := upd s.reqs r (some { q with phase := .finished .failed }) }
  | recv (r : Nat) (q : Req) (e : Event) (rest : List Event) (hq : s.reqs r = some q) (hp : q.phase = .waiting)
      (hb : q.buf = e :: rest) (hc : q.kind = .stream ∧ e.eventType ≠ .end) :
      StepR s (.recv r) { s with reqs := upd s.reqs r (some { q with buf := rest, popped := q.popped ++ [e] }) }
  | recvLast (r : Nat) (q : Req) (e : Event) (rest : List Event) (hq : s.reqs r = some q) (hp : q.phase = .waiting)
      (hb : q.buf = e :: rest) (hc : q.kind = .single ∨ e.eventType = .end) :
      StepR s (.recv r) { s with reqs := upd s.reqs r (some { q with buf := rest, popped := q.popped ++ [e], phase := .closing (some e) }) }
  | chanClosed (r : Nat) (q : Req) (hq : s.reqs r = some q) (hp : q.phase = .waiting) (hb : q.buf = [])
      (hl : s.listeners (cfg.group q.conn) q.event.id ≠ some r) (hcl : s.clones r = 0) (ph : ReqPhase)
      (hph : ph = if q.kind = .single then .finished .closed else .closing none) :
      StepR s (.chanClosed r) { s with reqs := upd s.reqs r (some { q with phase := ph }) }
  | finish (r : Nat) (q : Req) (last : Option Event) (hq : s.reqs r = some q) (hp : q.phase = .closing last) :
      StepR s (.finish r) { s with
        reqs := upd s.reqs r (some { q with phase := .finished (if last.isSome then .replied else .closed) }), listeners := upd s.listeners (cfg.group q.conn) (upd (s.listeners (cfg.group q.conn)) q.event.id none) }
  | timeout (r : Nat) (q : Req) (hq : s.reqs r = some q) (hp : q.phase = .waiting) :
      StepR s (.timeout r) { s with reqs := upd s.reqs r (some { q with phase := .finished .timeout }) }
  | drop (r : Nat) (q : Req) (hq : s.reqs r = some q) (hp : q.phase = .registered ∨ q.phase = .waiting) :
      StepR s (.drop r) { s with reqs := upd s.reqs r (some { q with phase := .finished .dropped }) }
  | emit (ctx : Ctx) (c : Nat) (ref : Option UInt64) (ns : Option String) (name : String) (payload : Bytes) (id : UInt64)
      (hc : ctxOf cfg s ctx = some (c, ref)) :
      StepR s (.emit ctx ns name payload id) { s with out := upd s.out c (s.out c ++ [{ origin := ctx.origin, event := ctxEvent ref ns name payload id }]), created := s.created ++ [id] }
  | handlerDone (t : Nat) (k : Task CB) (res : Except Error Bytes) (hk : s.tasks t = some k) (hp : k.phase = .running)
      (hr : resultPossible cfg k res = true) :
      StepR s (.handlerDone t res) { s with tasks := upd s.tasks t (some { k with phase := .responding res }) }
  | handlerPanic (t : Nat) (k : Task CB) (cb : CB) (hk : s.tasks t = some k) (hp : k.phase = .running) (hcb : k.cb = some cb) (hd : cfg.isDefaultError cb = false) :
      StepR s (.handlerPanic t) { s with tasks := upd s.tasks t (some { k with phase := .crashed }) }
  | respond (t : Nat) (k : Task CB) (res : Except Error Bytes) (id : UInt64) (hk : s.tasks t = some k)
      (hp : k.phase = .responding res) :
      StepR s (.respond t id) { s with tasks := upd s.tasks t (some { k with phase := afterResponse res true }), out := upd s.out k.conn (s.out k.conn ++ [{ origin := .final t, event := finalEvent cfg k res id }]), created := s.created ++ [id] }
  | respondFail (t : Nat) (k : Task CB) (res : Except Error Bytes) (hk : s.tasks t = some k) (hp : k.phase = .responding res) :
      StepR s (.respondFail t) { s with tasks := upd s.tasks t (some { k with phase := afterResponse res false }) }
  | cleanup (t : Nat) (k : Task CB) (res : Except Error Bytes) (sent : Bool) (hk : s.tasks t = some k) (hp : k.phase = .cleaning res sent) :
      StepR s (.cleanup t) { s with tasks := upd s.tasks t (some { k with phase := .done res sent }), listeners := upd s.listeners (cfg.group k.conn) (upd (s.listeners (cfg.group k.conn)) k.event.id none) }
  | stop (c : Nat) (hc : cfg.client c = true) : StepR s (.stop c) { s with stopped := upd s.stopped c true }
  | stopServer (c : Nat) (hc : cfg.client c = false) : StepR s (.stop c) s
  | abortIdle (c : Nat) (hl : s.loop c = .idle) (hst : s.stopped c = true) :
      StepR s (.abort c) { s with loop := upd s.loop c (.ended none) }
  | abortSending (c : Nat) (r : Nat) (e : Event) (hl : s.loop c = .sending r e) (hst : s.stopped c = true) :
      StepR s (.abort c) { s with loop := upd s.loop c (.ended (some e)), clones := upd s.clones r (s.clones r - 1) }
  | readEnd (c : Nat) (hl : s.loop c = .idle) (hi : s.inbox c = []) :
      StepR s (.readEnd c) { s with loop := upd s.loop c (.ended none) }

variable {cfg}

theorem spawn_eq {s s' : State CB} {c : Nat} {e : Event} {cb : Option CB} {t : Nat} (h : spawn s c e cb t = some s') :
    s.tasks t = none ∧
    s' = { s with tasks := upd s.tasks t (some { conn := c, event := e, cb := cb, phase := .running })
                  processed := s.processed ++ [{ conn := c, event := e, dest := .handler t }] } := by
  simp only [spawn] at h
  split at h
  · cases h
  · rename_i ht
    exact ⟨ht, (Option.some.inj h).symm⟩

theorem stepR_of_step {s s' : State CB} {op : Op} (h : step cfg s op = some s') : StepR cfg s op s' := by
  cases op with
  | arrive c e => simp only [step] at h; obtain rfl := Option.some.inj h; exact .arrive c e
  | take c t =>
    simp only [step] at h
    split at h
    · rename_i e rest hl hi
      cases hr : route cfg s c e with
      | listener r =>
        rw [hr] at h
        obtain rfl := Option.some.inj h
        simp only [route] at hr
        split at hr
        · rename_i r' hb
          obtain ⟨id, h1, h2⟩ := Option.bind_eq_some_iff.1 hb
          injection hr with hr
          subst hr
          exact .takeListener c t e rest r' id hl hi h1 h2
        · split at hr
          · cases hr
          · split at hr <;> cases hr
      | discard =>
        rw [hr] at h
        obtain rfl := Option.some.inj h
        simp only [route] at hr
        split at hr
        · cases hr
        · rename_i hb
          split at hr
          · rename_i hty
            exact .takeDiscard c t e rest hl hi (fun id hid => by simpa [hid] using hb) hty
          · split at hr <;> cases hr
      | handler cb =>
        rw [hr] at h
        obtain ⟨ht, rfl⟩ := spawn_eq h
        simp only [route] at hr
        split at hr
        · cases hr
        · rename_i hb
          split at hr
          · cases hr
          · rename_i hty
            refine .takeHandler c e rest cb t hl hi (fun id hid => by simpa [hid] using hb) hty ?_ ht
            split at hr <;> (injection hr with hr; simp [*])
    · cases h
  | deliver c t =>
    simp only [step] at h
    split at h
    · rename_i r e hl
      split at h
      · cases h
      · rename_i q hq
        split at h
        · rename_i ha
          split at h
          · rename_i hb
            obtain rfl := Option.some.inj h
            exact .deliver c t r e q hl hq ha hb
          · cases h
        · rename_i ha
          obtain ⟨ht, rfl⟩ := spawn_eq h
          exact .deliverDead c r e q t hl hq (by simpa using ha) ht
    · cases h
  | request r ctx kind ns name payload id =>
    simp only [step] at h
    split at h
    · rename_i c ref hr hc
      obtain rfl := Option.some.inj h
      exact .request r ctx c ref kind ns name payload id hr hc
    · cases h
  | sent r =>
    simp only [step] at h
    split at h
    · rename_i q hq
      split at h
      · rename_i hp; obtain rfl := Option.some.inj h; exact .sent r q hq hp
      · cases h
    · cases h
  | sendFail r =>
    simp only [step] at h
    split at h
    · rename_i q hq
      split at h
      · rename_i hp; obtain rfl := Option.some.inj h; exact .sendFail r q hq hp
      · cases h
    · cases h
  | recv r =>
    simp only [step] at h
    split at h
    · rename_i q hq
      split at h
      · rename_i hp
        split at h
        · cases h
        · rename_i e rest hb
          obtain rfl := Option.some.inj h
          by_cases hc : q.kind = .single ∨ e.eventType = .end
          · simp only [hc, if_true]
            exact .recvLast r q e rest hq hp hb hc
          · simp only [hc, if_false]
            have := StepR.recv (cfg := cfg) (s := s) r q e rest hq hp hb
              (by cases hk : q.kind <;> simp_all)
            rw [hp] at this
            exact this
      · cases h
    · cases h
  | chanClosed r =>
    simp only [step] at h
    split at h
    · rename_i q hq
      split at h
      · rename_i hp
        obtain rfl := Option.some.inj h
        exact .chanClosed r q hq hp.1 hp.2.1 hp.2.2.1 hp.2.2.2 _ rfl
      · cases h
    · cases h
  | finish r =>
    simp only [step] at h
    split at h
    · rename_i q hq
      split at h
      · rename_i last hp; obtain rfl := Option.some.inj h; exact .finish r q last hq hp
      · cases h
    · cases h
  | timeout r =>
    simp only [step] at h
    split at h
    · rename_i q hq
      split at h
      · rename_i hp; obtain rfl := Option.some.inj h; exact .timeout r q hq hp
      · cases h
    · cases h
  | drop r =>
    simp only [step] at h
    split at h
    · rename_i q hq
      split at h
      · rename_i hp; obtain rfl := Option.some.inj h; exact .drop r q hq hp
      · cases h
    · cases h
  | emit ctx ns name payload id =>
    simp only [step] at h
    split at h
    · rename_i c ref hc; obtain rfl := Option.some.inj h; exact .emit ctx c ref ns name payload id hc
    · cases h
  | handlerDone t res =>
    simp only [step] at h
    split at h
    · rename_i k hk
      split at h
      · rename_i hp
        split at h
        · rename_i hr; obtain rfl := Option.some.inj h; exact .handlerDone t k res hk hp hr
        · cases h
      · cases h
    · cases h
  | handlerPanic t =>
    simp only [step] at h
    split at h
    · rename_i k hk
      split at h
      · rename_i cb hp hcb
        split at h
        · cases h
        · rename_i hd; obtain rfl := Option.some.inj h; exact .handlerPanic t k cb hk hp hcb (by simpa using hd)
      · cases h
    · cases h
  | respond t id =>
    simp only [step] at h
    split at h
    · rename_i k hk
      split at h
      · rename_i res hp; obtain rfl := Option.some.inj h; exact .respond t k res id hk hp
      · cases h
    · cases h
  | respondFail t =>
    simp only [step] at h
    split at h
    · rename_i k hk
      split at h
      · rename_i res hp; obtain rfl := Option.some.inj h; exact .respondFail t k res hk hp
      · cases h
    · cases h
  | cleanup t =>
    simp only [step] at h
    split at h
    · rename_i k hk
      split at h
      · rename_i res sent hp; obtain rfl := Option.some.inj h; exact .cleanup t k res sent hk hp
      · cases h
    · cases h
  | stop c =>
    simp only [step] at h
    by_cases hc : cfg.client c
    · simp only [hc, if_true] at h
      obtain rfl := Option.some.inj h; exact .stop c hc
    · simp only [hc] at h
      obtain rfl := Option.some.inj h; exact .stopServer c (by simpa using hc)
  | abort c =>
    simp only [step] at h
    split at h
    · rename_i hst
      split at h
      · rename_i hl; obtain rfl := Option.some.inj h; exact .abortIdle c hl hst
      · rename_i r e hl; obtain rfl := Option.some.inj h; exact .abortSending c r e hl hst
      · cases h
    · cases h
  | readEnd c =>
    simp only [step] at h
    split at h
    · rename_i hl hi; obtain rfl := Option.some.inj h; exact .readEnd c hl hi
    · cases h

/-- Induction over the reachable states. -/
theorem reachable_induction {P : State CB → Prop} (h0 : P {})
    (hstep : ∀ s op s', Reachable cfg s → P s → StepR cfg s op s' → P s') {s : State CB} (h : Reachable cfg s) : P s := by
  obtain ⟨ops, h⟩ := h
  suffices ∀ ops s0, Reachable cfg s0 → P s0 → run cfg s0 ops = some s → P s from
    this ops {} ⟨[], rfl⟩ h0 h
  intro ops
  induction ops with
  | nil => intro s0 _ hp hr; cases hr; exact hp
  | cons op ops ih =>
    intro s0 hre hp hr
    simp only [run, Option.bind_eq_some_iff] at hr
    obtain ⟨s1, h1, h2⟩ := hr
    refine ih s1 ?_ (hstep s0 op s1 hre hp (stepR_of_step h1)) h2
    obtain ⟨ops0, h0⟩ := hre
    refine ⟨ops0 ++ [op], ?_⟩
    have : ∀ (l : List Op) (a : State CB), run cfg a l = some s0 → run cfg a (l ++ [op]) = some s1 := by
      intro l
      induction l with
      | nil => intro a ha; cases ha; simp [run, h1]
      | cons o l ihl =>
        intro a ha
        simp only [run, Option.bind_eq_some_iff, List.cons_append] at ha ⊢
        obtain ⟨b, hb, hb'⟩ := ha
        exact ⟨b, hb, ihl b hb'⟩
    exact this ops0 {} h0

end
end Bromine.Endpoint
