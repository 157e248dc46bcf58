import Verif.Spec.Emit
import Verif.Props.Payload
import Mathlib.Data.List.Forall2
/-
C16, C17, C48, C50 and the poll-level parts of C20, C21, C22, C23: what the futures returned by `emit`,
`await_reply` and `stream_replies` do, for every sequence of polls and every behaviour of the environment.
-/
namespace Bromine.Props
open Bromine Bromine.Spec

/-! ### Building the event -/

theorem takeEvent_new {P : Type} (enc : P → Outcome Bytes) (id : UInt64) (ctx : Context) (name : String)
    (ns : Option String) (p : P) (r : Option UInt64) (ty : EventType) :
    (EventMetadata.new ctx name ns p r ty).takeEvent enc id
      = enc p >>= fun b => .ok (some (Event.new id ns name b r ty)) := by
  cases h : enc p <;>
    simp [EventMetadata.new, EventMetadata.takeEvent, EventMetadata.buildEvent, takeField, h]

/-- The metadata after `build_event`. -/
def builtMetadata {P : Type} (e : Event) : EventMetadata P where
  event := some e
  ctx := none
  eventNamespace := none
  eventName := none
  resId := none
  eventType := none
  payload := none

theorem getEvent_new {P : Type} (enc : P → Outcome Bytes) (id : UInt64) (ctx : Context) (name : String)
    (ns : Option String) (p : P) (r : Option UInt64) (ty : EventType) :
    (EventMetadata.new ctx name ns p r ty).getEvent enc id
      = enc p >>= fun b => .ok (Event.new id ns name b r ty, builtMetadata (Event.new id ns name b r ty)) := by
  cases h : enc p <;>
    simp [EventMetadata.new, EventMetadata.getEvent, EventMetadata.buildEvent, takeField, h, builtMetadata]

theorem takeEvent_built {P : Type} (enc : P → Outcome Bytes) (id : UInt64) (e : Event) :
    (builtMetadata e : EventMetadata P).takeEvent enc id = .ok (some e) := by
  simp [builtMetadata, EventMetadata.takeEvent]

theorem emit_metadata {P : Type} (ctx : Context) (name : String) (p : P) :
    ∃ ty, ctx.emit name p = EventMetadata.new ctx name none p ctx.refId ty ∧
      ∀ id b, Event.new id none name b ctx.refId ty = emitEvent ctx none name b id := by
  cases h : ctx.refId with
  | none => exact ⟨.initiator, by simp [Context.emit, h, StreamEmitter.emit], by simp [Event.new, emitEvent, h]⟩
  | some r => exact ⟨.response, by simp [Context.emit, h, StreamEmitter.emitResponse], by simp [Event.new, emitEvent, h]⟩

theorem emitTo_metadata {P : Type} (ctx : Context) (ns name : String) (p : P) :
    ∃ ty, ctx.emitTo ns name p = EventMetadata.new ctx name (some ns) p ctx.refId ty ∧
      ∀ id b, Event.new id (some ns) name b ctx.refId ty = emitEvent ctx (some ns) name b id := by
  cases h : ctx.refId with
  | none => exact ⟨.initiator, by simp [Context.emitTo, h, StreamEmitter.emitTo], by simp [Event.new, emitEvent, h]⟩
  | some r => exact ⟨.response, by simp [Context.emitTo, h, StreamEmitter.emitResponseTo], by simp [Event.new, emitEvent, h]⟩

/-! ### The emit future -/

theorem polls_completed {P : Type} (envs : List (Env P)) (m : Option (EventMetadata P)) (st : Option Unit) :
    polls EmitFuture.poll envs { metadata := m, stream := st, fut := some .completed }
      = ⟨envs.map fun _ => .panic, []⟩ := by
  induction envs with
  | nil => rfl
  | cons env envs ih => simp [polls, EmitFuture.poll, pollWrite, ih]

theorem polls_running {P : Type} (e : Event) (envs : List (Env P)) (m : Option (EventMetadata P)) (st : Option Unit) :
    (polls EmitFuture.poll envs { metadata := m, stream := st, fut := some (.running e) }).results
      = writeResults e.id (envs.map fun env => env.writing e) ∧
    ∀ x ∈ (polls EmitFuture.poll envs { metadata := m, stream := st, fut := some (.running e) }).effects,
      x = .write e := by
  induction envs with
  | nil => exact ⟨rfl, by simp [polls]⟩
  | cons env envs ih =>
    cases h : env.writing e with
    | pending => simpa [polls, EmitFuture.poll, pollWrite, h, writeResults] using ih
    | panic => simp [polls, EmitFuture.poll, pollWrite, h, writeResults, polls_completed, Function.comp_def]
    | ready o =>
      cases o with
      | hang => simpa [polls, EmitFuture.poll, pollWrite, h, writeResults] using ih
      | ok a => simp [polls, EmitFuture.poll, pollWrite, h, writeResults, polls_completed, Function.comp_def]
      | err a => simp [polls, EmitFuture.poll, pollWrite, h, writeResults, polls_completed, Function.comp_def]
      | panic => simp [polls, EmitFuture.poll, pollWrite, h, writeResults, polls_completed, Function.comp_def]

/-- The first poll of an emit future that has an event to send is like a poll of the running one. -/
theorem poll_fresh {P : Type} (m : EventMetadata P) (env : Env P) (e : Event)
    (h : m.takeEvent env.enc env.freshId = .ok (some e)) :
    (EmitFuture.new m).poll env
      = EmitFuture.poll env { metadata := none, stream := none, fut := some (.running e) } := by
  simp [EmitFuture.new, EmitFuture.poll, h]

theorem polls_fresh {P : Type} (m : EventMetadata P) (env : Env P) (envs : List (Env P)) (e : Event)
    (h : m.takeEvent env.enc env.freshId = .ok (some e)) :
    polls EmitFuture.poll (env :: envs) (EmitFuture.new m)
      = polls EmitFuture.poll (env :: envs) { metadata := none, stream := none, fut := some (.running e) } := by
  simp [polls, poll_fresh m env e h]

theorem polls_first_effect {P : Type} (env : Env P) (envs : List (Env P)) (e : Event)
    (m : Option (EventMetadata P)) (st : Option Unit) :
    (polls EmitFuture.poll (env :: envs) { metadata := m, stream := st, fut := some (.running e) }).effects.head?
      = some (.write e) := by
  cases h : env.writing e with
  | pending => simp [polls, EmitFuture.poll, pollWrite, h]
  | panic => simp [polls, EmitFuture.poll, pollWrite, h]
  | ready o => cases o <;> simp [polls, EmitFuture.poll, pollWrite, h]

/-- What is observed when an emit is polled whose payload encodes to `b`. -/
structure Sends (e : Event) (writing : List (Poll (Outcome Unit))) (o : Observed (Poll (Outcome UInt64))) : Prop where
  /-- this event is written -/
  starts : o.effects.head? = some (.write e)
  /-- and nothing else is -/
  only : ∀ x ∈ o.effects, x = .write e
  /-- the result is its id, as soon as (and only when) the write has succeeded -/
  results : o.results = writeResults e.id writing

theorem sends_of {P : Type} (m : EventMetadata P) (env : Env P) (envs : List (Env P)) (e : Event)
    (h : m.takeEvent env.enc env.freshId = .ok (some e)) :
    Sends e ((env :: envs).map fun x => x.writing e) (polls EmitFuture.poll (env :: envs) (EmitFuture.new m)) := by
  rw [polls_fresh m env envs e h]
  exact ⟨polls_first_effect .., (polls_running ..).2, (polls_running ..).1⟩

/-- C16. Polling `ctx.emit(name, payload)` any number of times, in any environment, writes exactly the
expected event (no namespace; initiator on a connection context, a response to the handled event in a
handler) and returns its id. -/
theorem C16_emit {P : Type} (ctx : Context) (name : String) (p : P) (env : Env P) (envs : List (Env P)) (b : Bytes)
    (h : env.enc p = .ok b) :
    Sends (emitEvent ctx none name b env.freshId)
      ((env :: envs).map fun x => x.writing (emitEvent ctx none name b env.freshId))
      (polls EmitFuture.poll (env :: envs) (EmitFuture.new (ctx.emit name p))) := by
  obtain ⟨ty, h1, h2⟩ := emit_metadata ctx name p
  rw [h1]
  exact sends_of _ _ _ _ (by rw [takeEvent_new, h, ← h2]; rfl)

/-- C16 for `emit_to`: the same with the given namespace. -/
theorem C16_emit_to {P : Type} (ctx : Context) (ns name : String) (p : P) (env : Env P) (envs : List (Env P))
    (b : Bytes) (h : env.enc p = .ok b) :
    Sends (emitEvent ctx (some ns) name b env.freshId)
      ((env :: envs).map fun x => x.writing (emitEvent ctx (some ns) name b env.freshId))
      (polls EmitFuture.poll (env :: envs) (EmitFuture.new (ctx.emitTo ns name p))) := by
  obtain ⟨ty, h1, h2⟩ := emitTo_metadata ctx ns name p
  rw [h1]
  exact sends_of _ _ _ _ (by rw [takeEvent_new, h, ← h2]; rfl)

/-- C16 for the final answer of a handler (`emit_raw`): type, name and namespace as given, the reference is
the context's. -/
theorem C16_emit_raw {P : Type} (ctx : Context) (name : String) (ns : Option String) (ty : EventType) (p : P)
    (env : Env P) (envs : List (Env P)) (b : Bytes) (h : env.enc p = .ok b) :
    let e : Event := { header := { id := env.freshId, eventType := ty, refId := ctx.refId, ns := ns, name := name }
                       data := b }
    Sends e ((env :: envs).map fun x => x.writing e)
      (polls EmitFuture.poll (env :: envs) (EmitFuture.new (ctx.emitRaw name ns ty p))) := by
  intro e
  exact sends_of _ _ _ _ (by rw [Context.emitRaw, StreamEmitter.emitRaw, takeEvent_new, h]; rfl)

/-- The results when the write needs two polls: pending, then the id. -/
example (env env' : Env Bytes) (p b : Bytes) (ctx : Context) (h : env.enc p = .ok b)
    (h1 : ∀ e, env.writing e = .pending) (h2 : ∀ e, env'.writing e = .ready (.ok ())) :
    (polls EmitFuture.poll [env, env'] (EmitFuture.new (ctx.emit "a" p))).results
      = [.pending, .ready (.ok env.freshId)] := by
  rw [(C16_emit ctx "a" p env [env'] b h).results]
  simp [writeResults, h1, h2, emitEvent, Event.id]

/-! ### The await_reply future -/

theorem polls_reply_completed {P : Type} (envs : List (Env P)) (tmo : Option Nat) (em : Option (EmitFuture P))
    (id : UInt64) (t : Nat) :
    polls ReplyFuture.poll envs { timeout := tmo, emitMetadata := em, fut := some (id, t, .completed) }
      = ⟨envs.map fun _ => .panic, []⟩ := by
  induction envs with
  | nil => rfl
  | cons env envs ih => simp [polls, ReplyFuture.poll, pollReplyBlock, ih]

/-- A reply future once its block exists. -/
abbrev replyAt {P : Type} (tmo : Option Nat) (id : UInt64) (t : Nat) (f : Fut (ReplyStage P)) : ReplyFuture P :=
  { timeout := tmo, emitMetadata := none, fut := some (id, t, f) }

/-- An emit future that is writing `e`. -/
abbrev emitAt {P : Type} (e : Event) : EmitFuture P :=
  { metadata := none, stream := none, fut := some (.running e) }

theorem reply_first {P : Type} (ctx : Context) (name : String) (ns : Option String) (p : P) (r : Option UInt64)
    (ty : EventType) (tmo : Option Nat) (env : Env P) (b : Bytes) (h : env.enc p = .ok b) :
    let e := Event.new env.freshId ns name b r ty
    let t := tmo.getD ctx.defaultReplyTimeout
    ReplyFuture.poll env { timeout := tmo, emitMetadata := some (EmitFuture.new (EventMetadata.new ctx name ns p r ty)),
                           fut := none }
      = ((pollEmitting env e.id t (emitAt e)).1,
         replyAt none e.id t (pollEmitting env e.id t (emitAt e)).2.1,
         .register e.id :: (pollEmitting env e.id t (emitAt e)).2.2) := by
  intro e t
  have hg := getEvent_new env.enc env.freshId ctx name ns p r ty
  rw [h] at hg
  have hm : (EventMetadata.new ctx name ns p r ty).ctx = some ctx := rfl
  have hp : pollEmitting env e.id t
      { (EmitFuture.new (EventMetadata.new ctx name ns p r ty)) with metadata := some (builtMetadata e) }
      = pollEmitting env e.id t (emitAt e) := by
    have := poll_fresh (builtMetadata e : EventMetadata P) env e (takeEvent_built _ _ _)
    simp only [EmitFuture.new] at this ⊢
    simp only [pollEmitting, this]
  simp only [ReplyFuture.poll, EmitFuture.new, Option.bind_some, hm, hg, Outcome.bind_ok, pollReplyBlock]
  simp only [EmitFuture.new] at hp
  rw [hp]

/-- The effects of polling a request: everything is a write of its own event, or the removal of its own
listener. -/
def OwnEffects (e : Event) (l : List Effect) : Prop := ∀ x ∈ l, x = .write e ∨ x = .unregister e.id

/-- What a request can return: a reply that was in its channel, and that is not an error event; an error
which is a timeout only if the timer of `t` fired. -/
def OwnResult {P : Type} (e : Event) (t : Nat) (env : Env P) : Poll (Outcome Event) → Prop
  | .ready (.ok ev) => env.channel = .ready (some ev) ∧ ev.eventType ≠ .error
  | .ready (.err x) => env.writing e = .ready (.err x) ∨ (x = .timeout ∧ env.timer t = true) ∨
      (x = .send ∧ env.channel = .ready none) ∨
      (∃ ev, env.channel = .ready (some ev) ∧ ev.eventType = .error ∧
        ((∃ d, ev.payload errorPayload = .ok d ∧ x = .errorEvent d.code d.message) ∨ ev.payload errorPayload = .err x))
  | _ => True

/-- The states of the block of a request for `e`. -/
inductive ReplyState {P : Type} (e : Event) : Fut (ReplyStage P) → Prop
  | emitting : ReplyState e (.running (.emitting (emitAt e)))
  | selecting : ReplyState e (.running .selecting)
  | completed : ReplyState e .completed

theorem select_step {P : Type} (e : Event) (t : Nat) (env : Env P) :
    OwnResult e t env (pollSelect (P := P) env e.id t).1 ∧ ReplyState e (pollSelect (P := P) env e.id t).2.1 ∧
    OwnEffects e (pollSelect (P := P) env e.id t).2.2 := by
  unfold pollSelect
  have hs : ∀ x, selectReply env t = .ready x →
      (x = .err .timeout ∧ env.timer t = true) ∨ ∃ o, x = .ok o ∧ env.channel = .ready o := by
    intro x hx
    unfold selectReply at hx
    split at hx <;> first | (cases hx; simp_all) | simp_all
  split
  · exact ⟨trivial, .selecting, by simp [OwnEffects]⟩
  · exact ⟨trivial, .completed, by simp [OwnEffects]⟩
  · rename_i ev hev
    obtain ⟨h, _⟩ | ⟨o, ho, hc⟩ := hs _ hev
    · cases h
    · cases ho
      split
      · exact ⟨trivial, .completed, by simp [OwnEffects]⟩
      · rename_i hr
        refine ⟨?_, .completed, by simp [OwnEffects]⟩
        unfold replyResult at hr ⊢
        split
        · rename_i hty
          cases hd : ev.payload errorPayload with
          | ok d => exact Or.inr (Or.inr (Or.inr ⟨ev, hc, hty, Or.inl ⟨d, hd, rfl⟩⟩))
          | err x => exact Or.inr (Or.inr (Or.inr ⟨ev, hc, hty, Or.inr hd⟩))
          | panic => trivial
          | hang => trivial
        · rename_i hty
          exact ⟨hc, hty⟩
  · rename_i hev
    obtain ⟨h, _⟩ | ⟨o, ho, hc⟩ := hs _ hev
    · cases h
    · cases ho
      exact ⟨Or.inr (Or.inr (Or.inl ⟨rfl, hc⟩)), .completed, by simp [OwnEffects]⟩
  · rename_i x hev
    obtain ⟨h, h'⟩ | ⟨o, ho, hc⟩ := hs _ hev
    · cases h
      exact ⟨Or.inr (Or.inl ⟨rfl, h'⟩), .completed, by simp [OwnEffects]⟩
    · cases ho
  · exact ⟨trivial, .completed, by simp [OwnEffects]⟩
  · exact ⟨trivial, .selecting, by simp [OwnEffects]⟩

theorem emitting_step {P : Type} (e : Event) (t : Nat) (env : Env P) :
    OwnResult e t env (pollEmitting env e.id t (emitAt e)).1 ∧
    ReplyState e (pollEmitting env e.id t (emitAt e)).2.1 ∧
    OwnEffects e (pollEmitting env e.id t (emitAt e)).2.2 := by
  obtain ⟨h1, h2, h3⟩ := select_step e t env
  unfold pollEmitting
  cases h : env.writing e with
  | pending =>
    simp only [EmitFuture.poll, pollWrite, h]
    exact ⟨trivial, .emitting, by simp [OwnEffects]⟩
  | panic =>
    simp only [EmitFuture.poll, pollWrite, h]
    exact ⟨trivial, .completed, by simp [OwnEffects]⟩
  | ready o =>
    cases o with
    | hang =>
      simp only [EmitFuture.poll, pollWrite, h]
      exact ⟨trivial, .emitting, by simp [OwnEffects]⟩
    | panic =>
      simp only [EmitFuture.poll, pollWrite, h]
      exact ⟨trivial, .completed, by simp [OwnEffects]⟩
    | err x =>
      simp only [EmitFuture.poll, pollWrite, h]
      exact ⟨Or.inl h, .completed, by simp [OwnEffects]⟩
    | ok u =>
      simp only [EmitFuture.poll, pollWrite, h]
      refine ⟨h1, h2, ?_⟩
      intro x hx
      simp only [List.cons_append, List.nil_append, List.mem_cons] at hx
      obtain rfl | hx := hx
      · exact Or.inl rfl
      · exact h3 x hx

theorem block_step {P : Type} (e : Event) (t : Nat) (env : Env P) (f : Fut (ReplyStage P)) (hf : ReplyState e f) :
    OwnResult e t env (pollReplyBlock env e.id t f).1 ∧
    ReplyState e (pollReplyBlock env e.id t f).2.1 ∧
    OwnEffects e (pollReplyBlock env e.id t f).2.2 := by
  cases hf with
  | emitting => exact emitting_step e t env
  | selecting => exact select_step e t env
  | completed => exact ⟨trivial, .completed, by simp [OwnEffects, pollReplyBlock]⟩

theorem polls_reply {P : Type} (e : Event) (t : Nat) (envs : List (Env P)) (f : Fut (ReplyStage P))
    (hf : ReplyState e f) :
    List.Forall₂ (OwnResult e t) envs (polls ReplyFuture.poll envs (replyAt none e.id t f)).results ∧
    OwnEffects e (polls ReplyFuture.poll envs (replyAt none e.id t f)).effects := by
  induction envs generalizing f with
  | nil => exact ⟨.nil, by simp [OwnEffects, polls]⟩
  | cons env envs ih =>
    obtain ⟨h1, h2, h3⟩ := block_step e t env f hf
    obtain ⟨i1, i2⟩ := ih _ h2
    refine ⟨?_, ?_⟩
    · exact .cons h1 i1
    · intro x hx
      have hx : x ∈ (pollReplyBlock env e.id t f).2.2 ++
          (polls ReplyFuture.poll envs (replyAt none e.id t (pollReplyBlock env e.id t f).2.1)).effects := hx
      rcases List.mem_append.1 hx with hx | hx
      · exact h3 x hx
      · exact i2 x hx

/-- What is observed when a request for `e` with timeout `t` is polled in `envs`. -/
structure Requests {P : Type} (e : Event) (t : Nat) (envs : List (Env P)) (o : Observed (Poll (Outcome Event))) :
    Prop where
  /-- the reply listener is registered before anything is written -/
  registersFirst : o.effects.head? = some (.register e.id)
  /-- then only its own event is written and only its own listener is removed -/
  own : OwnEffects e o.effects.tail
  /-- and the writing starts right away -/
  writes : Effect.write e ∈ o.effects
  /-- every result is justified by what happened to this request during that poll -/
  results : List.Forall₂ (OwnResult e t) envs o.results

theorem requests_of {P : Type} (ctx : Context) (name : String) (ns : Option String) (p : P) (r : Option UInt64)
    (ty : EventType) (tmo : Option Nat) (env : Env P) (envs : List (Env P)) (b : Bytes) (h : env.enc p = .ok b) :
    Requests (Event.new env.freshId ns name b r ty) (tmo.getD ctx.defaultReplyTimeout) (env :: envs)
      (polls ReplyFuture.poll (env :: envs)
        { timeout := tmo, emitMetadata := some (EmitFuture.new (EventMetadata.new ctx name ns p r ty)), fut := none }) := by
  have hf := reply_first ctx name ns p r ty tmo env b h
  simp only at hf
  simp only [polls, hf]
  obtain ⟨h1, h2, h3⟩ := emitting_step (Event.new env.freshId ns name b r ty) (tmo.getD ctx.defaultReplyTimeout) env
  obtain ⟨i1, i2⟩ := polls_reply (Event.new env.freshId ns name b r ty) (tmo.getD ctx.defaultReplyTimeout) envs _ h2
  refine ⟨by simp, ?_, ?_, .cons h1 i1⟩
  · intro x hx
    simp only [List.cons_append, List.tail_cons, List.mem_append] at hx
    rcases hx with hx | hx
    · exact h3 x hx
    · exact i2 x hx
  · simp only [List.cons_append, List.mem_cons, List.mem_append]
    right; left
    unfold pollEmitting
    cases hw : env.writing (Event.new env.freshId ns name b r ty) with
    | pending => simp [EmitFuture.poll, pollWrite, hw]
    | panic => simp [EmitFuture.poll, pollWrite, hw]
    | ready o => cases o <;> simp [EmitFuture.poll, pollWrite, hw]

/-- The timeout of a request: the one given, else the context's default. -/
def effectiveTimeout (ctx : Context) (tmo : Option Nat) : Nat :=
  match tmo with
  | some t => t
  | none => ctx.defaultReplyTimeout

/-- `await_reply`, with or without `with_timeout`. -/
def awaitReply {P : Type} (m : EventMetadata P) (tmo : Option Nat) : ReplyFuture P :=
  match tmo with
  | some t => (EmitFuture.new m).awaitReply.withTimeout t
  | none => (EmitFuture.new m).awaitReply

theorem awaitReply_eq {P : Type} (m : EventMetadata P) (tmo : Option Nat) :
    awaitReply m tmo = { timeout := tmo, emitMetadata := some (EmitFuture.new m), fut := none } := by
  cases tmo <;> rfl

theorem effectiveTimeout_eq (ctx : Context) (tmo : Option Nat) :
    effectiveTimeout ctx tmo = tmo.getD ctx.defaultReplyTimeout := by
  cases tmo <;> rfl

/-- C20/C21/C50, poll level. However `ctx.emit(name, payload).await_reply()` is polled, the reply listener
for the emitted event's id is registered before the first byte is written; only that event is written; every
returned reply was taken from that listener's channel and a timeout is returned only if the timer of the
requested duration (else the default one) has fired. -/
theorem C21_registered_before_write {P : Type} (ctx : Context) (name : String) (p : P) (tmo : Option Nat)
    (env : Env P) (envs : List (Env P)) (b : Bytes) (h : env.enc p = .ok b) :
    Requests (emitEvent ctx none name b env.freshId) (effectiveTimeout ctx tmo) (env :: envs)
      (polls ReplyFuture.poll (env :: envs) (awaitReply (ctx.emit name p) tmo)) := by
  obtain ⟨ty, h1, h2⟩ := emit_metadata ctx name p
  rw [h1, awaitReply_eq, effectiveTimeout_eq, ← h2]
  exact requests_of _ _ _ _ _ _ _ _ _ _ h

/-- The same for `emit_to`. -/
theorem C21_registered_before_write_to {P : Type} (ctx : Context) (ns name : String) (p : P) (tmo : Option Nat)
    (env : Env P) (envs : List (Env P)) (b : Bytes) (h : env.enc p = .ok b) :
    Requests (emitEvent ctx (some ns) name b env.freshId) (effectiveTimeout ctx tmo) (env :: envs)
      (polls ReplyFuture.poll (env :: envs) (awaitReply (ctx.emitTo ns name p) tmo)) := by
  obtain ⟨ty, h1, h2⟩ := emitTo_metadata ctx ns name p
  rw [h1, awaitReply_eq, effectiveTimeout_eq, ← h2]
  exact requests_of _ _ _ _ _ _ _ _ _ _ h

theorem errorPayload_ne_timeout (e : Event) : e.payload errorPayload ≠ .err .timeout := by
  intro h
  unfold Event.payload errorPayload ErrorEventData.fromPayload readU16 readU32 readExact at h
  simp only at h
  by_cases h1 : 2 ≤ e.data.length
  · rw [if_pos h1] at h
    simp only [Outcome.bind_ok, Outcome.pure_eq] at h
    by_cases h2 : 4 ≤ (e.data.drop 2).length
    · rw [if_pos h2] at h
      simp only [Outcome.bind_ok] at h
      split at h
      · simp only [Outcome.bind_ok] at h
        split at h <;> cases h
      · cases h
    · rw [if_neg h2] at h; cases h
  · rw [if_neg h1] at h; cases h

/-- C50. A request never reports a timeout unless its own timer has fired (or the transport itself reported
that error). -/
theorem C50_timeout_only_when_due {P : Type} (ctx : Context) (name : String) (p : P) (tmo : Option Nat)
    (env : Env P) (envs : List (Env P)) (b : Bytes) (h : env.enc p = .ok b)
    (hdue : ∀ x ∈ env :: envs, x.timer (effectiveTimeout ctx tmo) = false)
    (hw : ∀ x ∈ env :: envs, ∀ e, x.writing e ≠ .ready (.err .timeout)) :
    .ready (.err .timeout) ∉ (polls ReplyFuture.poll (env :: envs) (awaitReply (ctx.emit name p) tmo)).results := by
  have hr := (C21_registered_before_write ctx name p tmo env envs b h).results
  intro hm
  generalize (polls ReplyFuture.poll (env :: envs) (awaitReply (ctx.emit name p) tmo)).results = l at *
  generalize env :: envs = es at *
  induction hr with
  | nil => cases hm
  | @cons x y es l hxy _ ih =>
    rcases List.mem_cons.1 hm with rfl | hm
    · rcases hxy with h1 | h1 | h1 | ⟨ev, h1, _, h2⟩
      · exact hw x (by simp) _ h1
      · rw [hdue x (by simp)] at h1; exact absurd h1.2 (by simp)
      · exact absurd h1.1 (by simp)
      · rcases h2 with ⟨d, _, h2⟩ | h2
        · cases h2
        · exact errorPayload_ne_timeout ev h2
    · exact ih hm (fun x hx => hdue x (by simp [hx])) (fun x hx => hw x (by simp [hx]))

/-! ### C23 the outcome of a request -/

theorem pollEmitting_quiet {P : Type} (e : Event) (t : Nat) (env : Env P) (hq : Quiet e t env) :
    (pollEmitting env e.id t (emitAt e)).1 = .pending ∧
    ((pollEmitting env e.id t (emitAt e)).2.1 = .running (.emitting (emitAt e)) ∨
     (pollEmitting env e.id t (emitAt e)).2.1 = .running .selecting) := by
  obtain ⟨h1, h2, h3 | h3⟩ := hq <;> simp [pollEmitting, EmitFuture.poll, pollWrite, pollSelect, selectReply, h1, h2, h3]

theorem polls_quiet {P : Type} (e : Event) (t : Nat) (envs : List (Env P)) (last : Env P)
    (hq : ∀ x ∈ envs, Quiet e t x) (ev : Event) (hl : last.channel = .ready (some ev)) (ht : last.timer t = false)
    (hw : last.writing e = .ready (.ok ())) (r : Poll (Outcome Event))
    (hr : r = match replyResult ev with | .panic => .panic | x => .ready x) (f : Fut (ReplyStage P))
    (hf : f = .running (.emitting (emitAt e)) ∨ f = .running .selecting) :
    (polls ReplyFuture.poll (envs ++ [last]) (replyAt none e.id t f)).results
      = envs.map (fun _ => .pending) ++ [r] := by
  induction envs generalizing f with
  | nil =>
    subst hr
    rcases hf with rfl | rfl <;>
      (simp [polls, ReplyFuture.poll, pollReplyBlock, pollEmitting, EmitFuture.poll, pollWrite, hw, pollSelect,
        selectReply, hl, ht]
       cases replyResult ev <;> rfl)
  | cons env envs ih =>
    have hq' := hq env (by simp)
    have ih' := fun f hf => ih (fun x hx => hq x (by simp [hx])) f hf
    rcases hf with rfl | rfl
    · obtain ⟨h1, h2⟩ := pollEmitting_quiet e t env hq'
      have := ih' _ h2
      simp only [List.cons_append, polls, ReplyFuture.poll, pollReplyBlock, List.map_cons, h1]
      rw [this]
    · obtain ⟨h1, h2, _⟩ := hq'
      have := ih' (.running .selecting) (Or.inr rfl)
      simp only [List.cons_append, polls, ReplyFuture.poll, pollReplyBlock, pollSelect, selectReply, h1, h2,
        List.map_cons]
      rw [this]

theorem await_first {P : Type} (ctx : Context) (name : String) (p : P) (tmo : Option Nat) (env : Env P)
    (envs : List (Env P)) (b : Bytes) (h : env.enc p = .ok b) :
    (polls ReplyFuture.poll (env :: envs) (awaitReply (ctx.emit name p) tmo)).results
      = (polls ReplyFuture.poll (env :: envs) (replyAt none (emitEvent ctx none name b env.freshId).id
          (effectiveTimeout ctx tmo) (.running (.emitting (emitAt (emitEvent ctx none name b env.freshId)))))).results := by
  obtain ⟨ty, h1, h2⟩ := emit_metadata ctx name p
  have hf := reply_first ctx name none p ctx.refId ty tmo env b h
  simp only at hf
  rw [h1, awaitReply_eq, effectiveTimeout_eq, ← h2]
  simp only [polls, hf]
  rfl

/-- C23, caller's side. If the first reply that a request receives is an Error event whose payload is a
(code, message) pair, `await_reply` returns `Err(ErrorEvent)` with this code and message; for every number of
polls before. -/
theorem C23_await_error {P : Type} (ctx : Context) (name : String) (p : P) (tmo : Option Nat)
    (env : Env P) (envs : List (Env P)) (last : Env P) (b : Bytes) (h : env.enc p = .ok b)
    (hq : ∀ x ∈ env :: envs, Quiet (emitEvent ctx none name b env.freshId) (effectiveTimeout ctx tmo) x)
    (ev : Event) (hl : last.channel = .ready (some ev)) (ht : last.timer (effectiveTimeout ctx tmo) = false)
    (hw : last.writing (emitEvent ctx none name b env.freshId) = .ready (.ok ()))
    (hty : ev.eventType = .error) (d : ErrorEventData) (trail : Bytes)
    (hd : ∃ bs, ErrorLayout d bs ∧ ev.data = bs ++ trail) :
    (polls ReplyFuture.poll (env :: (envs ++ [last])) (awaitReply (ctx.emit name p) tmo)).results
      = (env :: envs).map (fun _ => .pending) ++ [.ready (.err (.errorEvent d.code d.message))] := by
  rw [await_first ctx name p tmo env _ b h]
  refine polls_quiet _ _ (env :: envs) last hq ev hl ht hw _ ?_ _ (Or.inl rfl)
  obtain ⟨bs, hbs, hdat⟩ := hd
  have : ev.payload errorPayload = .ok d := by
    have := (C09_error_decoder_iff ev.data trail d).2 ⟨bs, hbs, hdat⟩
    simp [Event.payload, this]
  simp [replyResult, hty, this]

/-- C23, caller's side. Any other first reply is returned as it is. -/
theorem C23_await_ok {P : Type} (ctx : Context) (name : String) (p : P) (tmo : Option Nat)
    (env : Env P) (envs : List (Env P)) (last : Env P) (b : Bytes) (h : env.enc p = .ok b)
    (hq : ∀ x ∈ env :: envs, Quiet (emitEvent ctx none name b env.freshId) (effectiveTimeout ctx tmo) x)
    (ev : Event) (hl : last.channel = .ready (some ev)) (ht : last.timer (effectiveTimeout ctx tmo) = false)
    (hw : last.writing (emitEvent ctx none name b env.freshId) = .ready (.ok ()))
    (hty : ev.eventType ≠ .error) :
    (polls ReplyFuture.poll (env :: (envs ++ [last])) (awaitReply (ctx.emit name p) tmo)).results
      = (env :: envs).map (fun _ => .pending) ++ [.ready (.ok ev)] := by
  rw [await_first ctx name p tmo env _ b h]
  refine polls_quiet _ _ (env :: envs) last hq ev hl ht hw _ ?_ _ (Or.inl rfl)
  simp [replyResult, hty]

/-- A concrete request: written in the first poll, answered in the third. -/
def exampleEnv (ch : Poll (Option Event)) : Env Bytes where
  enc b := .ok b
  freshId := 7
  writing _ := .ready (.ok ())
  channel := ch
  timer _ := false
  timerFirst := true

/-- The error event of a failed handler. -/
def exampleError : Event :=
  { header := { id := 3, eventType := .error, refId := some 7, ns := none, name := "error" }
    data := [1, 244, 0, 0, 0, 2, 104, 105] }

example : (polls ReplyFuture.poll [exampleEnv .pending, exampleEnv .pending, exampleEnv (.ready (some exampleError))]
      (awaitReply ((Context.mk none 60000).emit "a" [1, 2]) (some 5))).results
    = [.pending, .pending, .ready (.err (.errorEvent 500 "hi"))] :=
  C23_await_error (Context.mk none 60000) "a" [1, 2] (some 5) (exampleEnv .pending) [exampleEnv .pending]
    (exampleEnv (.ready (some exampleError))) [1, 2] rfl
    (by intro x hx; simp at hx; subst hx; exact ⟨rfl, rfl, Or.inr rfl⟩) exampleError rfl rfl rfl rfl
    { code := 500, message := "hi" } []
    ⟨[1, 244, 0, 0, 0, 2, 104, 105], ⟨[1, 244], [0, 0, 0, 2], ⟨rfl, by decide⟩, ⟨rfl, by decide +kernel⟩, by decide +kernel⟩, by decide +kernel⟩

/-! ### C17 a payload that fails to serialise -/

theorem polls_dead_emit {P : Type} (envs : List (Env P)) :
    polls EmitFuture.poll envs { metadata := none, stream := none, fut := none }
      = ⟨envs.map fun _ => .ready (.err .invalidState), []⟩ := by
  induction envs with
  | nil => rfl
  | cons env envs ih => simp [polls, EmitFuture.poll, ih]

theorem polls_dead_reply {P : Type} (tmo : Option Nat) (envs : List (Env P)) :
    polls ReplyFuture.poll envs { timeout := tmo, emitMetadata := none, fut := none }
      = ⟨envs.map fun _ => .ready (.err .invalidState), []⟩ := by
  induction envs with
  | nil => rfl
  | cons env envs ih => simp [polls, ReplyFuture.poll, ih]

theorem polls_dead_stream {P : Type} (tmo : Option Nat) (envs : List (Env P)) :
    polls StreamFuture.poll envs { timeout := tmo, emitMetadata := none, fut := none }
      = ⟨envs.map fun _ => .ready (.err .invalidState), []⟩ := by
  induction envs with
  | nil => rfl
  | cons env envs ih => simp [polls, StreamFuture.poll, ih]

/-- The three ways to send what `emit`/`emit_to` prepared, observed through any number of polls. -/
structure FailsToStart {P : Type} (x : Error) (env : Env P) (envs : List (Env P)) (m : EventMetadata P) : Prop where
  emit : polls EmitFuture.poll (env :: envs) (EmitFuture.new m)
    = ⟨.ready (.err x) :: envs.map (fun _ => .ready (.err .invalidState)), []⟩
  awaitReply : ∀ tmo, polls ReplyFuture.poll (env :: envs) (awaitReply m tmo)
    = ⟨.ready (.err x) :: envs.map (fun _ => .ready (.err .invalidState)), []⟩
  streamReplies : ∀ tmo, polls StreamFuture.poll (env :: envs)
      (match tmo with
        | some t => (EmitFuture.new m).streamReplies.withTimeout t
        | none => (EmitFuture.new m).streamReplies)
    = ⟨.ready (.err x) :: envs.map (fun _ => .ready (.err .invalidState)), []⟩

theorem fails_of {P : Type} (ctx : Context) (name : String) (ns : Option String) (p : P) (r : Option UInt64)
    (ty : EventType) (env : Env P) (envs : List (Env P)) (x : Error) (h : env.enc p = .err x) :
    FailsToStart x env envs (EventMetadata.new ctx name ns p r ty) := by
  have ht := takeEvent_new env.enc env.freshId ctx name ns p r ty
  have hg := getEvent_new env.enc env.freshId ctx name ns p r ty
  rw [h] at ht hg
  have hc : (EventMetadata.new ctx name ns p r ty).ctx = some ctx := rfl
  refine ⟨?_, ?_, ?_⟩
  · simp [polls, EmitFuture.poll, EmitFuture.new, ht, polls_dead_emit]
  · intro tmo
    rw [awaitReply_eq]
    simp [polls, ReplyFuture.poll, EmitFuture.new, hg, hc, polls_dead_reply]
  · intro tmo
    cases tmo <;>
    simp [polls, StreamFuture.poll, EmitFuture.new, hg, hc, polls_dead_stream, EmitFuture.streamReplies,
      StreamFuture.withTimeout]

/-- C17 (and C48). If converting the payload fails, `emit`, `await_reply` and `stream_replies` return that
error at the first poll, have no effect at all (nothing written, no listener registered), and every further
poll reports `InvalidState` without any effect. -/
theorem C17_failed_payload {P : Type} (ctx : Context) (name : String) (p : P) (env : Env P) (envs : List (Env P))
    (x : Error) (h : env.enc p = .err x) : FailsToStart x env envs (ctx.emit name p) := by
  obtain ⟨ty, h1, _⟩ := emit_metadata ctx name p
  rw [h1]
  exact fails_of _ _ _ _ _ _ _ _ _ h

/-- C17 for events with a namespace. -/
theorem C17_failed_payload_to {P : Type} (ctx : Context) (ns name : String) (p : P) (env : Env P)
    (envs : List (Env P)) (x : Error) (h : env.enc p = .err x) : FailsToStart x env envs (ctx.emitTo ns name p) := by
  obtain ⟨ty, h1, _⟩ := emitTo_metadata ctx ns name p
  rw [h1]
  exact fails_of _ _ _ _ _ _ _ _ _ h

/-- A payload with a serde format that the build does not contain fails like this (see
`C12_disabled_sender`). -/
example (envs : List (Env Unit)) (ctx : Context) :
    let env : Env Unit := { enc := fun v => serdeEnc (fun _ => false) ⟨fun _ _ => .ok [], fun _ _ => .error .format⟩ .json v
                            freshId := 1, writing := fun _ => .pending, channel := .pending
                            timer := fun _ => false, timerFirst := false }
    FailsToStart (.serialization (.unavailableFormat .json)) env envs (ctx.emit "a" ()) :=
  C17_failed_payload ctx "a" () _ envs _ rfl

/-! ### C22, C48 reply streams, poll level -/

/-- A stream is created only when the event is on the wire, with the emitted event's id, and its listener was
registered before: as for `await_reply`. -/
theorem C22_stream_started {P : Type} (ctx : Context) (name : String) (p : P) (env : Env P) (b : Bytes)
    (h : env.enc p = .ok b) (hw : env.writing (emitEvent ctx none name b env.freshId) = .ready (.ok ())) :
    polls StreamFuture.poll [env] (EmitFuture.new (ctx.emit name p)).streamReplies
      = ⟨[.ready (.ok (ResponseStream.new env.freshId ctx.defaultReplyTimeout))],
         [.register env.freshId, .write (emitEvent ctx none name b env.freshId)]⟩ := by
  obtain ⟨ty, h1, h2⟩ := emit_metadata ctx name p
  have hg := getEvent_new env.enc env.freshId ctx name none p ctx.refId ty
  rw [h, Outcome.bind_ok, h2] at hg
  have hc : (EventMetadata.new ctx name none p ctx.refId ty).ctx = some ctx := rfl
  have hp := poll_fresh (builtMetadata (emitEvent ctx none name b env.freshId) : EventMetadata P) env _ (takeEvent_built _ _ _)
  simp only [EmitFuture.new] at hp
  have hi : (emitEvent ctx none name b env.freshId).id = env.freshId := rfl
  rw [h1]
  simp [polls, StreamFuture.poll, EmitFuture.new, EmitFuture.streamReplies, hg, hc, pollStreamBlock,
    pollStreamEmitting, hp]
  simp [EmitFuture.poll, pollWrite, hw, hi]

theorem polls_stream_ended {P : Type} (envs : List (Env P)) (id : UInt64) (t : Nat) :
    polls ResponseStream.pollNext envs { eventId := id, timeout := t, live := false, fut := none }
      = ⟨envs.map fun _ => .ready none, []⟩ := by
  induction envs with
  | nil => rfl
  | cons env envs ih => simp [polls, ResponseStream.pollNext, ih]

theorem polls_stream_broken {P : Type} (envs : List (Env P)) (id : UInt64) (t : Nat) (l : Bool) :
    polls ResponseStream.pollNext envs { eventId := id, timeout := t, live := l, fut := some .completed }
      = ⟨envs.map fun _ => .panic, []⟩ := by
  induction envs with
  | nil => rfl
  | cons env envs ih => simp [polls, ResponseStream.pollNext, pollNextBlock, ih]

theorem stream_items {P : Type} (envs : List (Env P)) (id : UInt64) (t : Nat)
    (ht : ∀ x ∈ envs, x.timer t = false) (s : ResponseStream)
    (hs : s = { eventId := id, timeout := t, live := true, fut := none } ∨
          s = { eventId := id, timeout := t, live := false, fut := some (.running ()) }) :
    (polls ResponseStream.pollNext envs s).results = streamItems (envs.map fun x => x.channel) ∧
    ∀ x ∈ (polls ResponseStream.pollNext envs s).effects, x = .unregister id := by
  induction envs generalizing s with
  | nil => exact ⟨rfl, by simp [polls]⟩
  | cons env envs ih =>
    have h0 := ht env (by simp)
    have ih' := fun s hs => ih (fun x hx => ht x (by simp [hx])) s hs
    cases hc : env.channel with
    | pending =>
      have := ih' _ (Or.inr rfl)
      rcases hs with rfl | rfl <;>
        simpa [polls, ResponseStream.pollNext, pollNextBlock, selectReply, h0, hc, streamItems] using this
    | panic =>
      rcases hs with rfl | rfl <;>
        simp [polls, ResponseStream.pollNext, pollNextBlock, selectReply, h0, hc, streamItems,
          polls_stream_broken, Function.comp_def]
    | ready o =>
      cases o with
      | none =>
        rcases hs with rfl | rfl <;>
          simp [polls, ResponseStream.pollNext, pollNextBlock, selectReply, h0, hc, streamItems,
            polls_stream_ended, Function.comp_def]
      | some e =>
        by_cases he : e.eventType = .end
        · rcases hs with rfl | rfl <;>
            simp [polls, ResponseStream.pollNext, pollNextBlock, selectReply, h0, hc, streamItems,
              polls_stream_ended, Function.comp_def, he]
        · have := ih' _ (Or.inl rfl)
          rcases hs with rfl | rfl <;>
            simpa [polls, ResponseStream.pollNext, pollNextBlock, selectReply, h0, hc, streamItems, he] using this

/-- C22, poll level. A reply stream that does not run into its timeout yields, poll by poll, exactly what
arrives in its channel, up to and including the first End event, and nothing after it. -/
theorem C22_stream_items {P : Type} (envs : List (Env P)) (id : UInt64) (t : Nat)
    (ht : ∀ x ∈ envs, x.timer t = false) :
    (polls ResponseStream.pollNext envs (ResponseStream.new id t)).results
      = streamItems (envs.map fun x => x.channel) :=
  (stream_items envs id t ht _ (Or.inl rfl)).1

/-- C48. A reply stream that has given its End event (or whose channel was closed) keeps returning `None`
for ever, without any effect, whatever happens. -/
theorem C48_ended_stream {P : Type} (envs later : List (Env P)) (last : Env P) (id : UInt64) (t : Nat)
    (ht : ∀ x ∈ envs ++ [last], x.timer t = false)
    (hp : ∀ x ∈ envs, x.channel = .pending ∨ ∃ e, x.channel = .ready (some e) ∧ e.eventType ≠ .end)
    (hl : last.channel = .ready none ∨ ∃ e, last.channel = .ready (some e) ∧ e.eventType = .end) :
    polls ResponseStream.pollNext later
        (stateAfter ResponseStream.pollNext (envs ++ [last]) (ResponseStream.new id t))
      = ⟨later.map fun _ => .ready none, []⟩ := by
  suffices h : ∀ s : ResponseStream, (s = { eventId := id, timeout := t, live := true, fut := none } ∨
      s = { eventId := id, timeout := t, live := false, fut := some (.running ()) }) →
      stateAfter ResponseStream.pollNext (envs ++ [last]) s
        = { eventId := id, timeout := t, live := false, fut := none } by
    rw [h (ResponseStream.new id t) (Or.inl rfl), polls_stream_ended]
  induction envs with
  | nil =>
    intro s hs
    have h0 := ht last (by simp)
    rcases hl with hl | ⟨e, hl, he⟩ <;> rcases hs with rfl | rfl <;>
      simp [stateAfter, ResponseStream.pollNext, pollNextBlock, selectReply, *]
  | cons env envs ih =>
    intro s hs
    have h0 := ht env (by simp)
    have ih' := ih (fun x hx => ht x (by simp at hx ⊢; tauto)) (fun x hx => hp x (by simp [hx]))
    rcases hp env (by simp) with hc | ⟨e, hc, he⟩
    · have := ih' _ (Or.inr rfl)
      rcases hs with rfl | rfl <;>
        simpa [stateAfter, ResponseStream.pollNext, pollNextBlock, selectReply, h0, hc] using this
    · have := ih' _ (Or.inl rfl)
      rcases hs with rfl | rfl <;>
        simpa [stateAfter, ResponseStream.pollNext, pollNextBlock, selectReply, h0, hc, he] using this

/-- C48, violated. When a reply stream has reported a timeout, every further poll panics. -/
theorem C48_violated_after_timeout {P : Type} (env : Env P) (later : List (Env P)) (id : UInt64) (t : Nat)
    (ht : env.timer t = true) (hc : env.channel = .pending) :
    (polls ResponseStream.pollNext (env :: later) (ResponseStream.new id t)).results
      = .ready (some (.err .timeout)) :: later.map fun _ => .panic := by
  simp [polls, ResponseStream.pollNext, ResponseStream.new, pollNextBlock, selectReply, ht, hc]
  cases env.timerFirst <;> simp [polls_stream_broken]

/-- A stream of two replies and the End event. -/
example (e1 e2 e3 : Event) (h1 : e1.eventType = .response) (h2 : e2.eventType = .response) (h3 : e3.eventType = .end) :
    (polls ResponseStream.pollNext
      [exampleEnv (.ready (some e1)), exampleEnv .pending, exampleEnv (.ready (some e2)),
       exampleEnv (.ready (some e3)), exampleEnv .pending] (ResponseStream.new 7 100)).results
      = [.ready (some (.ok e1)), .pending, .ready (some (.ok e2)), .ready (some (.ok e3)), .ready none] := by
  rw [C22_stream_items _ _ _ (by simp [exampleEnv])]
  simp [exampleEnv, streamItems, h1, h2, h3]

/-! ### Poll by poll: everything a request does (C24, C50, C22) -/

theorem polls_of_trace {P S R : Type} (poll : Env P → S → R × S × List Effect) (envs : List (Env P)) (s : S) :
    (polls poll envs s).results = (trace poll envs s).map (·.1) ∧ (polls poll envs s).effects = (trace poll envs s).flatMap (·.2) := by
  induction envs generalizing s with
  | nil => exact ⟨rfl, rfl⟩
  | cons env envs ih => simp [polls, trace, ih]

theorem error_payload_cases (ev : Event) : (∃ d, ev.payload errorPayload = .ok d) ∨ ∃ x, ev.payload errorPayload = .err x := by
  have re : ∀ n r, (∃ v, readExact n r = .ok v) ∨ ∃ x, readExact n r = .err x := by
    intro n r; unfold readExact; split
    · exact .inl ⟨_, rfl⟩
    · exact .inr ⟨_, rfl⟩
  simp only [Event.payload, errorPayload, ErrorEventData.fromPayload, readU16, readU32]
  rcases re 2 ev.data with ⟨v, h⟩ | ⟨x, h⟩
  · simp only [h, bind, Outcome.bind, pure]
    rcases re 4 v.2 with ⟨v2, h2⟩ | ⟨x, h2⟩
    · simp only [h2]
      rcases re (UInt32.ofNat (beVal v2.1)).toNat v2.2 with ⟨v3, h3⟩ | ⟨x, h3⟩
      · simp only [h3]
        cases fromUtf8 v3.1
        · exact .inr ⟨_, rfl⟩
        · exact .inl ⟨_, rfl⟩
      · simp only [h3]; exact .inr ⟨_, rfl⟩
    · simp only [h2]; exact .inr ⟨_, rfl⟩
  · simp only [h, bind, Outcome.bind]; exact .inr ⟨_, rfl⟩

theorem select_reqStep {P : Type} (e : Event) (t : Nat) (env : Env P) (pre : List Effect) (hpre : pre = [] ∨ pre = [.write e]) :
    RequestStep e t env (pollSelect (P := P) env e.id t).1 (pre ++ (pollSelect (P := P) env e.id t).2.2) := by
  have hrep : ∀ ev, env.channel = .ready (some ev) →
      RequestStep e t env (match replyResult ev with | .panic => (.panic : Poll (Outcome Event)) | r => .ready r) (pre ++ [.unregister e.id]) := by
    intro ev hc
    refine .reply ev hc _ ?_ pre hpre
    by_cases hty : ev.eventType = .error
    · rcases error_payload_cases ev with ⟨d, hd⟩ | ⟨x, hx⟩
      · have : replyResult ev = .err (.errorEvent d.code d.message) := by simp [replyResult, hty, hd]
        rw [this]; exact .error hty d hd
      · have : replyResult ev = .err x := by simp [replyResult, hty, hx]
        rw [this]; exact .broken hty x hx
    · have : replyResult ev = .ok ev := by simp [replyResult, hty]
      rw [this]; exact .ok hty
  have hrep' : ∀ ev, env.channel = .ready (some ev) → selectReply env t = .ready (.ok (some ev)) →
      RequestStep e t env (pollSelect (P := P) env e.id t).1 (pre ++ (pollSelect (P := P) env e.id t).2.2) := by
    intro ev hc hs
    have := hrep ev hc
    unfold pollSelect
    rw [hs]
    simp only
    split
    · rename_i h; rw [h] at this; exact this
    · rename_i h
      split at this
      · rename_i h'; exact absurd h' h
      · exact this
  cases ht : env.timer t with
  | true =>
    cases hf : env.timerFirst with
    | true =>
      have hs : selectReply env t = .ready (.err .timeout) := by simp [selectReply, ht, hf]
      simp only [pollSelect, hs, List.append_nil]
      exact .timeout ht pre hpre
    | false =>
      cases hc : env.channel with
      | pending =>
        have hs : selectReply env t = .ready (.err .timeout) := by simp [selectReply, ht, hf, hc]
        simp only [pollSelect, hs, List.append_nil]
        exact .timeout ht pre hpre
      | panic =>
        have hs : selectReply env t = .ready (.err .timeout) := by simp [selectReply, ht, hf, hc]
        simp only [pollSelect, hs, List.append_nil]
        exact .timeout ht pre hpre
      | ready o =>
        have hs : selectReply env t = .ready (.ok o) := by simp [selectReply, hf, hc]
        cases o with
        | none =>
          simp only [pollSelect, hs, List.append_nil]
          exact .closed hc pre hpre
        | some ev => exact hrep' ev hc hs
  | false =>
    cases hc : env.channel with
    | pending =>
      have hs : selectReply env t = .pending := by simp [selectReply, ht, hc]
      simp only [pollSelect, hs, List.append_nil]
      exact .waiting hc ht pre hpre
    | panic =>
      have hs : selectReply env t = .panic := by simp [selectReply, ht, hc]
      simp only [pollSelect, hs, List.append_nil]
      exact .panic pre hpre
    | ready o =>
      have hs : selectReply env t = .ready (.ok o) := by simp [selectReply, ht, hc]
      cases o with
      | none =>
        simp only [pollSelect, hs, List.append_nil]
        exact .closed hc pre hpre
      | some ev => exact hrep' ev hc hs

theorem emitting_reqStep {P : Type} (e : Event) (t : Nat) (env : Env P) :
    RequestStep e t env (pollEmitting env e.id t (emitAt e)).1 (pollEmitting env e.id t (emitAt e)).2.2 := by
  have h1 := select_reqStep e t env [.write e] (.inr rfl)
  unfold pollEmitting
  cases h : env.writing e with
  | pending =>
    simp only [EmitFuture.poll, pollWrite, h]
    exact .writing (.inl h)
  | panic =>
    simp only [EmitFuture.poll, pollWrite, h]
    exact .panic _ (.inr rfl)
  | ready o =>
    cases o with
    | hang =>
      simp only [EmitFuture.poll, pollWrite, h]
      exact .writing (.inr h)
    | panic =>
      simp only [EmitFuture.poll, pollWrite, h]
      exact .panic _ (.inr rfl)
    | err x =>
      simp only [EmitFuture.poll, pollWrite, h]
      exact .failed x h
    | ok u =>
      simp only [EmitFuture.poll, pollWrite, h]
      exact h1

theorem trace_reply {P : Type} (e : Event) (t : Nat) (envs : List (Env P)) (f : Fut (ReplyStage P)) (hf : ReplyState e f) :
    List.Forall₂ (fun x o => RequestStep e t x o.1 o.2) envs (trace ReplyFuture.poll envs (replyAt none e.id t f)) := by
  induction envs generalizing f with
  | nil => exact .nil
  | cons env envs ih =>
    obtain ⟨_, h2, _⟩ := block_step e t env f hf
    refine .cons ?_ (ih _ h2)
    cases hf with
    | emitting => exact emitting_reqStep e t env
    | selecting =>
      have := select_reqStep e t env [] (.inl rfl)
      exact this
    | completed => exact .panic [] (.inl rfl)

theorem trace_of {P : Type} (ctx : Context) (name : String) (ns : Option String) (p : P) (r : Option UInt64)
    (ty : EventType) (tmo : Option Nat) (env : Env P) (envs : List (Env P)) (b : Bytes) (h : env.enc p = .ok b) :
    ∃ r0 eff0 rest, trace ReplyFuture.poll (env :: envs)
        { timeout := tmo, emitMetadata := some (EmitFuture.new (EventMetadata.new ctx name ns p r ty)), fut := none } =
          (r0, .register env.freshId :: eff0) :: rest ∧
      RequestStep (Event.new env.freshId ns name b r ty) (tmo.getD ctx.defaultReplyTimeout) env r0 eff0 ∧
      List.Forall₂ (fun x o => RequestStep (Event.new env.freshId ns name b r ty) (tmo.getD ctx.defaultReplyTimeout) x o.1 o.2) envs rest := by
  have hf := reply_first ctx name ns p r ty tmo env b h
  simp only at hf
  simp only [trace, hf]
  obtain ⟨_, h2, _⟩ := emitting_step (Event.new env.freshId ns name b r ty) (tmo.getD ctx.defaultReplyTimeout) env
  exact ⟨_, _, _, rfl, emitting_reqStep _ _ env, trace_reply _ _ envs _ h2⟩

/-- **C20, C21, C24, C50: `await_reply`, poll by poll.** However it is polled: the first poll registers the listener before anything else; after that
every poll is one of `RequestStep`. In particular the listener is removed exactly in the poll that returns a reply (not after a timeout or a failed
write), and a request whose event is written does not stay pending once its timer (the given timeout, else the default) has fired. -/
theorem C50_await_reply_steps {P : Type} (ctx : Context) (name : String) (p : P) (tmo : Option Nat)
    (env : Env P) (envs : List (Env P)) (b : Bytes) (h : env.enc p = .ok b) :
    ∃ r0 eff0 rest, trace ReplyFuture.poll (env :: envs) (awaitReply (ctx.emit name p) tmo) = (r0, .register env.freshId :: eff0) :: rest ∧
      RequestStep (emitEvent ctx none name b env.freshId) (effectiveTimeout ctx tmo) env r0 eff0 ∧
      List.Forall₂ (fun x o => RequestStep (emitEvent ctx none name b env.freshId) (effectiveTimeout ctx tmo) x o.1 o.2) envs rest := by
  obtain ⟨ty, h1, h2⟩ := emit_metadata ctx name p
  rw [h1, awaitReply_eq, effectiveTimeout_eq, ← h2]
  exact trace_of _ _ _ _ _ _ _ _ _ _ h

/-- The same for `emit_to`. -/
theorem C50_await_reply_steps_to {P : Type} (ctx : Context) (ns name : String) (p : P) (tmo : Option Nat)
    (env : Env P) (envs : List (Env P)) (b : Bytes) (h : env.enc p = .ok b) :
    ∃ r0 eff0 rest, trace ReplyFuture.poll (env :: envs) (awaitReply (ctx.emitTo ns name p) tmo) = (r0, .register env.freshId :: eff0) :: rest ∧
      RequestStep (emitEvent ctx (some ns) name b env.freshId) (effectiveTimeout ctx tmo) env r0 eff0 ∧
      List.Forall₂ (fun x o => RequestStep (emitEvent ctx (some ns) name b env.freshId) (effectiveTimeout ctx tmo) x o.1 o.2) envs rest := by
  obtain ⟨ty, h1, h2⟩ := emitTo_metadata ctx ns name p
  rw [h1, awaitReply_eq, effectiveTimeout_eq, ← h2]
  exact trace_of _ _ _ _ _ _ _ _ _ _ h

/-- A request that times out in its second poll: the listener stays registered. -/
example : polls ReplyFuture.poll [exampleEnv .pending, { exampleEnv .pending with timer := fun t => decide (t ≤ 5) }]
      (awaitReply ((Context.mk none 60000).emit "a" [1, 2]) (some 5))
    = ⟨[.pending, .ready (.err .timeout)], [.register 7, .write (emitEvent (Context.mk none 60000) none "a" [1, 2] 7)]⟩ := by
  rfl

/-- `stream_replies`, with or without `with_timeout`. -/
def streamReplies {P : Type} (m : EventMetadata P) (tmo : Option Nat) : StreamFuture P :=
  match tmo with
  | some t => (EmitFuture.new m).streamReplies.withTimeout t
  | none => (EmitFuture.new m).streamReplies

theorem streamReplies_eq {P : Type} (m : EventMetadata P) (tmo : Option Nat) :
    streamReplies m tmo = { timeout := tmo, emitMetadata := some (EmitFuture.new m), fut := none } := by
  cases tmo <;> rfl

theorem stream_emitting {P : Type} (e : Event) (t : Nat) (env : Env P) :
    StreamRequestStep e t env (pollStreamEmitting env e.id t (emitAt e)).1 (pollStreamEmitting env e.id t (emitAt e)).2.2 ∧
    ((pollStreamEmitting env e.id t (emitAt e)).2.1 = .running (.emitting (emitAt e)) ∨ (pollStreamEmitting env e.id t (emitAt e)).2.1 = .completed) := by
  unfold pollStreamEmitting
  cases h : env.writing e with
  | pending =>
    simp only [EmitFuture.poll, pollWrite, h]
    exact ⟨.writing (.inl h), by simp⟩
  | panic =>
    simp only [EmitFuture.poll, pollWrite, h]
    exact ⟨.panic _ (.inr rfl), by simp⟩
  | ready o =>
    cases o with
    | hang =>
      simp only [EmitFuture.poll, pollWrite, h]
      exact ⟨.writing (.inr h), by simp⟩
    | panic =>
      simp only [EmitFuture.poll, pollWrite, h]
      exact ⟨.panic _ (.inr rfl), by simp⟩
    | err x =>
      simp only [EmitFuture.poll, pollWrite, h]
      exact ⟨.failed x h, by simp⟩
    | ok u =>
      simp only [EmitFuture.poll, pollWrite, h]
      exact ⟨.started h, by simp⟩

theorem trace_stream {P : Type} (e : Event) (t : Nat) (envs : List (Env P)) (f : Fut (StreamStage P))
    (hf : f = .running (.emitting (emitAt e)) ∨ f = .completed) :
    List.Forall₂ (fun x o => StreamRequestStep e t x o.1 o.2) envs
      (trace StreamFuture.poll envs { timeout := none, emitMetadata := none, fut := some (e.id, t, f) }) := by
  induction envs generalizing f with
  | nil => exact .nil
  | cons env envs ih =>
    rcases hf with rfl | rfl
    · obtain ⟨h1, h2⟩ := stream_emitting e t env
      exact .cons h1 (ih _ h2)
    · exact .cons (.panic [] (.inl rfl)) (ih _ (.inr rfl))

theorem trace_stream_of {P : Type} (ctx : Context) (name : String) (ns : Option String) (p : P) (r : Option UInt64)
    (ty : EventType) (tmo : Option Nat) (env : Env P) (envs : List (Env P)) (b : Bytes) (h : env.enc p = .ok b) :
    ∃ r0 eff0 rest, trace StreamFuture.poll (env :: envs)
        { timeout := tmo, emitMetadata := some (EmitFuture.new (EventMetadata.new ctx name ns p r ty)), fut := none } =
          (r0, .register env.freshId :: eff0) :: rest ∧
      StreamRequestStep (Event.new env.freshId ns name b r ty) (tmo.getD ctx.defaultReplyTimeout) env r0 eff0 ∧
      List.Forall₂ (fun x o => StreamRequestStep (Event.new env.freshId ns name b r ty) (tmo.getD ctx.defaultReplyTimeout) x o.1 o.2) envs rest := by
  have hg := getEvent_new env.enc env.freshId ctx name ns p r ty
  rw [h, Outcome.bind_ok] at hg
  have hc : (EventMetadata.new ctx name ns p r ty).ctx = some ctx := rfl
  have hp := poll_fresh (builtMetadata (Event.new env.freshId ns name b r ty) : EventMetadata P) env _ (takeEvent_built _ _ _)
  simp only [EmitFuture.new] at hp
  obtain ⟨h1, h2⟩ := stream_emitting (Event.new env.freshId ns name b r ty) (tmo.getD ctx.defaultReplyTimeout) env
  have key : StreamFuture.poll env { timeout := tmo, emitMetadata := some (EmitFuture.new (EventMetadata.new ctx name ns p r ty)), fut := none } =
      ((pollStreamEmitting env env.freshId (tmo.getD ctx.defaultReplyTimeout) (emitAt (Event.new env.freshId ns name b r ty))).1,
       { timeout := none, emitMetadata := none, fut := some (env.freshId, tmo.getD ctx.defaultReplyTimeout,
          (pollStreamEmitting env env.freshId (tmo.getD ctx.defaultReplyTimeout) (emitAt (Event.new env.freshId ns name b r ty))).2.1) },
       .register env.freshId :: (pollStreamEmitting env env.freshId (tmo.getD ctx.defaultReplyTimeout) (emitAt (Event.new env.freshId ns name b r ty))).2.2) := by
    have hi : (Event.new env.freshId ns name b r ty).id = env.freshId := rfl
    have he : ∀ (t : Nat), pollStreamEmitting env env.freshId t
        { metadata := some (builtMetadata (Event.new env.freshId ns name b r ty)), stream := some (), fut := none } =
        pollStreamEmitting env env.freshId t (emitAt (Event.new env.freshId ns name b r ty)) := by
      intro t
      simp only [pollStreamEmitting, hp]
    simp only [StreamFuture.poll, EmitFuture.new, hc, hg, Option.bind_some, pollStreamBlock, hi, he]
  simp only [trace, key]
  exact ⟨_, _, _, rfl, h1, trace_stream _ _ envs _ h2⟩

/-- **C21, C50: `stream_replies`, poll by poll.** The listener is registered first, then the event is written; as soon as it is, the stream for its id is
returned, with the given timeout (else the default one). -/
theorem C50_stream_replies_steps {P : Type} (ctx : Context) (name : String) (p : P) (tmo : Option Nat)
    (env : Env P) (envs : List (Env P)) (b : Bytes) (h : env.enc p = .ok b) :
    ∃ r0 eff0 rest, trace StreamFuture.poll (env :: envs) (streamReplies (ctx.emit name p) tmo) = (r0, .register env.freshId :: eff0) :: rest ∧
      StreamRequestStep (emitEvent ctx none name b env.freshId) (effectiveTimeout ctx tmo) env r0 eff0 ∧
      List.Forall₂ (fun x o => StreamRequestStep (emitEvent ctx none name b env.freshId) (effectiveTimeout ctx tmo) x o.1 o.2) envs rest := by
  obtain ⟨ty, h1, h2⟩ := emit_metadata ctx name p
  rw [h1, streamReplies_eq, effectiveTimeout_eq, ← h2]
  exact trace_stream_of _ _ _ _ _ _ _ _ _ _ h

/-- C50: the same for events with a namespace. -/
theorem C50_stream_replies_steps_to {P : Type} (ctx : Context) (ns name : String) (p : P) (tmo : Option Nat)
    (env : Env P) (envs : List (Env P)) (b : Bytes) (h : env.enc p = .ok b) :
    ∃ r0 eff0 rest, trace StreamFuture.poll (env :: envs) (streamReplies (ctx.emitTo ns name p) tmo) = (r0, .register env.freshId :: eff0) :: rest ∧
      StreamRequestStep (emitEvent ctx (some ns) name b env.freshId) (effectiveTimeout ctx tmo) env r0 eff0 ∧
      List.Forall₂ (fun x o => StreamRequestStep (emitEvent ctx (some ns) name b env.freshId) (effectiveTimeout ctx tmo) x o.1 o.2) envs rest := by
  obtain ⟨ty, h1, h2⟩ := emitTo_metadata ctx ns name p
  rw [h1, streamReplies_eq, effectiveTimeout_eq, ← h2]
  exact trace_stream_of _ _ _ _ _ _ _ _ _ _ h

/-- A stream whose event needs two polls to be written. -/
example : polls StreamFuture.poll [{ exampleEnv .pending with writing := fun _ => .pending }, exampleEnv .pending]
      (streamReplies ((Context.mk none 60000).emit "a" [1, 2]) (some 5))
    = ⟨[.pending, .ready (.ok (ResponseStream.new 7 5))],
       [.register 7, .write (emitEvent (Context.mk none 60000) none "a" [1, 2] 7), .write (emitEvent (Context.mk none 60000) none "a" [1, 2] 7)]⟩ := by
  rfl

/-- **C22, C24: what a reply stream does.** A reply stream that does not run into its timeout removes its listener when it gives the End event (or finds
its channel closed), and does nothing else. -/
theorem C22_stream_effects {P : Type} (envs : List (Env P)) (id : UInt64) (t : Nat) (ht : ∀ x ∈ envs, x.timer t = false) :
    (polls ResponseStream.pollNext envs (ResponseStream.new id t)).effects = streamEffects id (envs.map fun x => x.channel) := by
  suffices ∀ s : ResponseStream, (s = { eventId := id, timeout := t, live := true, fut := none } ∨
      s = { eventId := id, timeout := t, live := false, fut := some (.running ()) }) →
      (polls ResponseStream.pollNext envs s).effects = streamEffects id (envs.map fun x => x.channel) from this _ (.inl rfl)
  induction envs with
  | nil => intro s _; rfl
  | cons env envs ih =>
    intro s hs
    have h0 := ht env (by simp)
    have ih' := fun s hs => ih (fun x hx => ht x (by simp [hx])) s hs
    cases hc : env.channel with
    | pending =>
      have := ih' _ (Or.inr rfl)
      rcases hs with rfl | rfl <;>
        simpa [polls, ResponseStream.pollNext, pollNextBlock, selectReply, h0, hc, streamEffects] using this
    | panic =>
      rcases hs with rfl | rfl <;>
        simp [polls, ResponseStream.pollNext, pollNextBlock, selectReply, h0, hc, streamEffects, polls_stream_broken]
    | ready o =>
      cases o with
      | none =>
        rcases hs with rfl | rfl <;>
          simp [polls, ResponseStream.pollNext, pollNextBlock, selectReply, h0, hc, streamEffects, polls_stream_ended]
      | some e =>
        by_cases he : e.eventType = .end
        · rcases hs with rfl | rfl <;>
            simp [polls, ResponseStream.pollNext, pollNextBlock, selectReply, h0, hc, streamEffects, polls_stream_ended, he]
        · have := ih' _ (Or.inl rfl)
          rcases hs with rfl | rfl <;>
            simpa [polls, ResponseStream.pollNext, pollNextBlock, selectReply, h0, hc, streamEffects, he] using this

/-- **C50: a reply stream times out.** A stream that has not ended reports a timeout in the poll in which its timer has fired and no reply is there. Its
listener stays registered. -/
theorem C50_stream_times_out {P : Type} (envs : List (Env P)) (last : Env P) (id : UInt64) (t : Nat) (ht : ∀ x ∈ envs, x.timer t = false)
    (hp : ∀ x ∈ envs, x.channel = .pending ∨ ∃ e, x.channel = .ready (some e) ∧ e.eventType ≠ .end)
    (hl : last.timer t = true) (hc : last.channel = .pending) :
    polls ResponseStream.pollNext (envs ++ [last]) (ResponseStream.new id t) =
      ⟨streamItems (envs.map fun x => x.channel) ++ [.ready (some (.err .timeout))], []⟩ := by
  suffices ∀ s : ResponseStream, (s = { eventId := id, timeout := t, live := true, fut := none } ∨
      s = { eventId := id, timeout := t, live := false, fut := some (.running ()) }) →
      polls ResponseStream.pollNext (envs ++ [last]) s =
        ⟨streamItems (envs.map fun x => x.channel) ++ [.ready (some (.err .timeout))], []⟩ from this _ (.inl rfl)
  induction envs with
  | nil =>
    intro s hs
    have hsel : selectReply last t = .ready (.err .timeout) := by
      cases hf : last.timerFirst <;> simp [selectReply, hl, hc, hf]
    rcases hs with rfl | rfl <;> simp [polls, ResponseStream.pollNext, pollNextBlock, hsel, streamItems]
  | cons env envs ih =>
    intro s hs
    have h0 := ht env (by simp)
    have ih' := ih (fun x hx => ht x (by simp [hx])) (fun x hx => hp x (by simp [hx]))
    rcases hp env (by simp) with hc' | ⟨e, hc', he⟩
    · have := ih' _ (Or.inr rfl)
      rcases hs with rfl | rfl <;>
        simp [polls, ResponseStream.pollNext, pollNextBlock, selectReply, h0, hc', streamItems, this]
    · have := ih' _ (Or.inl rfl)
      rcases hs with rfl | rfl <;>
        simp [polls, ResponseStream.pollNext, pollNextBlock, selectReply, h0, hc', he, streamItems, this]


end Bromine.Props
