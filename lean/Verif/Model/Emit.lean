import Verif.Model.Payload
/-
`Context::emit` / `emit_to` / `emit_raw` (src/ipc/context.rs, src/ipc/stream_emitter/mod.rs) and the futures
returned by them (src/ipc/stream_emitter/*.rs), poll by poll.
-/
namespace Bromine

/-- The parts of `Context` (context.rs:36-53) that emitting depends on. -/
structure Context where
  refId : Option UInt64
  defaultReplyTimeout : Nat
deriving DecidableEq, Repr

/-- `EventMetadata`, event_metadata.rs:8-16. -/
structure EventMetadata (P : Type) where
  event : Option Event
  ctx : Option Context
  eventNamespace : Option (Option String)
  eventName : Option String
  resId : Option (Option UInt64)
  eventType : Option EventType
  payload : Option P

/-- `EmitMetadata::new`, emit_metadata.rs:28-50 (the metadata part). -/
def EventMetadata.new {P : Type} (ctx : Context) (name : String) (ns : Option String) (payload : P)
    (resId : Option UInt64) (ty : EventType) : EventMetadata P where
  event := none
  ctx := some ctx
  eventName := some name
  eventNamespace := some ns
  payload := some payload
  resId := some resId
  eventType := some ty

/-- `StreamEmitter::emit`, stream_emitter/mod.rs:72-86. -/
def StreamEmitter.emit {P : Type} (ctx : Context) (name : String) (payload : P) : EventMetadata P :=
  EventMetadata.new ctx name none payload none .initiator
/-- `StreamEmitter::emit_to`, stream_emitter/mod.rs:90-105. -/
def StreamEmitter.emitTo {P : Type} (ctx : Context) (ns name : String) (payload : P) : EventMetadata P :=
  EventMetadata.new ctx name (some ns) payload none .initiator
/-- `StreamEmitter::emit_raw`, stream_emitter/mod.rs:109-119. -/
def StreamEmitter.emitRaw {P : Type} (ctx : Context) (resId : Option UInt64) (name : String) (ns : Option String)
    (ty : EventType) (payload : P) : EventMetadata P :=
  EventMetadata.new ctx name ns payload resId ty
/-- `StreamEmitter::emit_response`, stream_emitter/mod.rs:123-138. -/
def StreamEmitter.emitResponse {P : Type} (ctx : Context) (eventId : UInt64) (name : String) (payload : P) :
    EventMetadata P :=
  EventMetadata.new ctx name none payload (some eventId) .response
/-- `StreamEmitter::emit_response_to`, stream_emitter/mod.rs:142-158. -/
def StreamEmitter.emitResponseTo {P : Type} (ctx : Context) (eventId : UInt64) (ns name : String) (payload : P) :
    EventMetadata P :=
  EventMetadata.new ctx name (some ns) payload (some eventId) .response

/-- `Context::emit`, context.rs:95-102. -/
def Context.emit {P : Type} (ctx : Context) (name : String) (payload : P) : EventMetadata P :=
  match ctx.refId with
  | some refId => StreamEmitter.emitResponse ctx refId name payload
  | none => StreamEmitter.emit ctx name payload

/-- `Context::emit_to`, context.rs:105-117. -/
def Context.emitTo {P : Type} (ctx : Context) (ns name : String) (payload : P) : EventMetadata P :=
  match ctx.refId with
  | some refId => StreamEmitter.emitResponseTo ctx refId ns name payload
  | none => StreamEmitter.emitTo ctx ns name payload

/-- `Context::emit_raw`, context.rs:77-92. -/
def Context.emitRaw {P : Type} (ctx : Context) (name : String) (ns : Option String) (ty : EventType) (payload : P) :
    EventMetadata P :=
  StreamEmitter.emitRaw ctx ctx.refId name ns ty payload

/-- `Option::take().ok_or(Error::InvalidState)?` -/
def takeField {α : Type} (o : Option α) : Outcome α :=
  match o with
  | some a => .ok a
  | none => .err .invalidState

/-- `EventMetadata::build_event`, event_metadata.rs:33-53: the new event. `enc` is `into_payload` with the
metadata's context, `id` the id that `generate_event_id` will return. The fields are taken in order, so
after any failure they are (partly) gone; since the only two callers drop the metadata on failure
the mutation on the failure path is not observable and not modelled. -/
def EventMetadata.buildEvent {P : Type} (enc : P → Outcome Bytes) (id : UInt64) (m : EventMetadata P) :
    Outcome (EventMetadata P) := do
  let _ctx ← takeField m.ctx
  let name ← takeField m.eventName
  let ns ← takeField m.eventNamespace
  let payload ← takeField m.payload
  let resId ← takeField m.resId
  let ty ← takeField m.eventType
  let bytes ← enc payload
  pure { event := some (Event.new id ns name bytes resId ty), ctx := none, eventNamespace := none,
         eventName := none, resId := none, eventType := none, payload := none }

/-- `EventMetadata::get_event`, event_metadata.rs:19-24. -/
def EventMetadata.getEvent {P : Type} (enc : P → Outcome Bytes) (id : UInt64) (m : EventMetadata P) :
    Outcome (Event × EventMetadata P) := do
  let m ← if m.event.isNone then m.buildEvent enc id else pure m
  match m.event with
  | some e => pure (e, m)
  | none => .panic

/-- `EventMetadata::take_event`, event_metadata.rs:26-31. -/
def EventMetadata.takeEvent {P : Type} (enc : P → Outcome Bytes) (id : UInt64) (m : EventMetadata P) :
    Outcome (Option Event) := do
  let m ← if m.event.isNone then m.buildEvent enc id else pure m
  pure m.event

/-- `Poll<T>`, with panics. -/
inductive Poll (α : Type) where
  | pending
  | ready (a : α)
  | panic
deriving DecidableEq, Repr

/-- What a poll does to the outside world, in order. -/
inductive Effect where
  /-- the write half was locked / written to / flushed for this event (emit_metadata.rs:92-94) -/
  | write (e : Event)
  /-- a reply listener was inserted (context.rs:129) -/
  | register (id : UInt64)
  /-- a reply listener was removed (emit_metadata_with_response.rs:82) -/
  | unregister (id : UInt64)
deriving DecidableEq, Repr

/-- The state of a boxed `async` block. -/
inductive Fut (σ : Type) where
  | running (s : σ)
  | completed
deriving DecidableEq, Repr

/-- `EmitMetadata`, emit_metadata.rs:20-24. The inner future (lines 89-98) writes one event. -/
structure EmitFuture (P : Type) where
  metadata : Option (EventMetadata P)
  stream : Option Unit
  fut : Option (Fut Event)

/-- A freshly created `EmitMetadata`, emit_metadata.rs:37-49. -/
def EmitFuture.new {P : Type} (m : EventMetadata P) : EmitFuture P :=
  { metadata := some m, stream := some (), fut := none }

/-- What the environment does during one poll. -/
structure Env (P : Type) where
  /-- `IntoPayload::into_payload` -/
  enc : P → Outcome Bytes
  /-- the next event id -/
  freshId : UInt64
  /-- result of polling the lock / write / flush of an event's bytes: pending, done, or an i/o error -/
  writing : Event → Poll (Outcome Unit)
  /-- the reply channel: nothing yet, an event, or closed -/
  channel : Poll (Option Event)
  /-- the timer `tokio::time::sleep(t)` started by this future has fired -/
  timer : Nat → Bool
  /-- `tokio::select!` looks at the timer first in this poll (it picks a random order) -/
  timerFirst : Bool

/-- Polling the inner future of `EmitMetadata`, emit_metadata.rs:89-98. `Event::into_bytes` never fails. -/
def pollWrite {P : Type} (env : Env P) : Fut Event → Poll (Outcome UInt64) × Fut Event × List Effect
  | .completed => (.panic, .completed, [])
  | .running e =>
    match env.writing e with
    | .pending => (.pending, .running e, [.write e])
    | .ready (.ok _) => (.ready (.ok e.id), .completed, [.write e])
    | .ready (.err x) => (.ready (.err x), .completed, [.write e])
    | .ready .panic => (.panic, .completed, [.write e])
    | .ready .hang => (.pending, .running e, [.write e])
    | .panic => (.panic, .completed, [.write e])

/-- `EmitMetadata::poll`, emit_metadata.rs:76-101. -/
def EmitFuture.poll {P : Type} (env : Env P) (s : EmitFuture P) :
    Poll (Outcome UInt64) × EmitFuture P × List Effect :=
  match s.fut with
  | some f =>
    let (r, f, eff) := pollWrite env f
    (r, { s with fut := some f }, eff)
  | none =>
    match s.metadata with
    | none => (.ready (.err .invalidState), s, [])
    | some m =>
      let s := { s with metadata := none }
      match s.stream with
      | none => (.ready (.err .invalidState), s, [])
      | some _ =>
        let s := { s with stream := none }
        match m.takeEvent env.enc env.freshId with
        | .err e => (.ready (.err e), s, [])
        | .panic => (.panic, s, [])
        | .hang => (.panic, s, [])
        | .ok none => (.panic, s, [])
        | .ok (some e) =>
          let (r, f, eff) := pollWrite env (.running e)
          (r, { s with fut := some f }, eff)

/-- The state of the `async` block of `EmitMetadataWithResponse`, emit_metadata_with_response.rs:55-75. -/
inductive ReplyStage (P : Type) where
  /-- before line 56 -/
  | start (em : EmitFuture P)
  /-- in line 57 -/
  | emitting (em : EmitFuture P)
  /-- in lines 59-66 -/
  | selecting

/-- `EmitMetadataWithResponse`, emit_metadata_with_response.rs:15-19; `fut` carries the event id captured
by the block. -/
structure ReplyFuture (P : Type) where
  timeout : Option Nat
  emitMetadata : Option (EmitFuture P)
  fut : Option (UInt64 × Nat × Fut (ReplyStage P))

/-- `EmitMetadata::await_reply`, emit_metadata.rs:54-60. -/
def EmitFuture.awaitReply {P : Type} (s : EmitFuture P) : ReplyFuture P :=
  { timeout := none, emitMetadata := some s, fut := none }

/-- `EmitMetadataWithResponse::with_timeout`, emit_metadata_with_response.rs:24-28. -/
def ReplyFuture.withTimeout {P : Type} (s : ReplyFuture P) (t : Nat) : ReplyFuture P :=
  { s with timeout := some t }

/-- What `await_reply` makes of the reply it received, emit_metadata_with_response.rs:70-74. -/
def replyResult (e : Event) : Outcome Event :=
  if e.eventType = .error then do
    let d ← e.payload errorPayload
    .err (.errorEvent d.code d.message)
  else .ok e

/-- The `select!` of lines 59-66: whether it is decided, and how. -/
def selectReply {P : Type} (env : Env P) (t : Nat) : Poll (Outcome (Option Event)) :=
  match env.timer t, env.timerFirst, env.channel with
  | true, true, _ => .ready (.err .timeout)
  | _, _, .ready e => .ready (.ok e)
  | true, _, _ => .ready (.err .timeout)
  | false, _, .pending => .pending
  | false, _, .panic => .panic

/-- Lines 59-74 of emit_metadata_with_response.rs, one poll. -/
def pollSelect {P : Type} (env : Env P) (id : UInt64) (t : Nat) :
    Poll (Outcome Event) × Fut (ReplyStage P) × List Effect :=
  match selectReply env t with
  | .pending => (.pending, .running .selecting, [])
  | .panic => (.panic, .completed, [])
  | .ready (.ok (some e)) =>
    match replyResult e with
    | .panic => (.panic, .completed, [.unregister id])
    | r => (.ready r, .completed, [.unregister id])
  | .ready (.ok none) => (.ready (.err .send), .completed, [])
  | .ready (.err e) => (.ready (.err e), .completed, [])
  | .ready .panic => (.panic, .completed, [])
  | .ready .hang => (.pending, .running .selecting, [])

/-- Lines 57-74 of emit_metadata_with_response.rs, one poll. -/
def pollEmitting {P : Type} (env : Env P) (id : UInt64) (t : Nat) (em : EmitFuture P) :
    Poll (Outcome Event) × Fut (ReplyStage P) × List Effect :=
  match em.poll env with
  | (.pending, em, eff) => (.pending, .running (.emitting em), eff)
  | (.panic, _, eff) => (.panic, .completed, eff)
  | (.ready (.err e), _, eff) => (.ready (.err e), .completed, eff)
  | (.ready .panic, _, eff) => (.panic, .completed, eff)
  | (.ready .hang, em, eff) => (.pending, .running (.emitting em), eff)
  | (.ready (.ok _), _, eff) =>
    let (r, f, eff') := pollSelect env id t
    (r, f, eff ++ eff')

/-- One poll of the block, emit_metadata_with_response.rs:55-75. -/
def pollReplyBlock {P : Type} (env : Env P) (id : UInt64) (t : Nat) :
    Fut (ReplyStage P) → Poll (Outcome Event) × Fut (ReplyStage P) × List Effect
  | .completed => (.panic, .completed, [])
  | .running (.start em) =>
    let (r, f, eff) := pollEmitting env id t em
    (r, f, .register id :: eff)
  | .running (.emitting em) => pollEmitting env id t em
  | .running .selecting => pollSelect env id t

/-- `EmitMetadataWithResponse::poll`, emit_metadata_with_response.rs:36-78. -/
def ReplyFuture.poll {P : Type} (env : Env P) (s : ReplyFuture P) :
    Poll (Outcome Event) × ReplyFuture P × List Effect :=
  match s.fut with
  | some (id, t, f) =>
    let (r, f, eff) := pollReplyBlock env id t f
    (r, { s with fut := some (id, t, f) }, eff)
  | none =>
    match s.emitMetadata with
    | none => (.ready (.err .invalidState), s, [])
    | some em =>
      let s := { s with emitMetadata := none }
      match em.metadata.bind (·.ctx), em.metadata with
      | some ctx, some m =>
        let t := s.timeout.getD ctx.defaultReplyTimeout
        let s := { s with timeout := none }
        match m.getEvent env.enc env.freshId with
        | .err e => (.ready (.err e), s, [])
        | .panic => (.panic, s, [])
        | .hang => (.panic, s, [])
        | .ok (e, m) =>
          let (r, f, eff) := pollReplyBlock env e.id t (.running (.start { em with metadata := some m }))
          (r, { s with fut := some (e.id, t, f) }, eff)
      | _, _ => (.ready (.err .invalidState), s, [])

/-! ### `stream_replies` -/

/-- The state of the `async` block of `EmitMetadataWithResponseStream`,
emit_metadata_with_response_stream.rs:86-91. -/
inductive StreamStage (P : Type) where
  | start (em : EmitFuture P)
  | emitting (em : EmitFuture P)

/-- `EmitMetadataWithResponseStream`, emit_metadata_with_response_stream.rs:18-22. -/
structure StreamFuture (P : Type) where
  timeout : Option Nat
  emitMetadata : Option (EmitFuture P)
  fut : Option (UInt64 × Nat × Fut (StreamStage P))

/-- `EmitMetadataWithResponseStream::with_timeout`, emit_metadata_with_response_stream.rs:56-60. -/
def StreamFuture.withTimeout {P : Type} (s : StreamFuture P) (t : Nat) : StreamFuture P :=
  { s with timeout := some t }

/-- `EmitMetadata::stream_replies`, emit_metadata.rs:62-68. -/
def EmitFuture.streamReplies {P : Type} (s : EmitFuture P) : StreamFuture P :=
  { timeout := none, emitMetadata := some s, fut := none }

/-- `ResponseStream`, emit_metadata_with_response_stream.rs:27-33. `live`: `ctx` and `receiver` are present
(they are always both present or both taken). The block of lines 115-130 has no state of its own. -/
structure ResponseStream where
  eventId : UInt64
  timeout : Nat
  live : Bool
  fut : Option (Fut Unit)
deriving DecidableEq, Repr

/-- `ResponseStream::new`, emit_metadata_with_response_stream.rs:36-49. -/
def ResponseStream.new (id : UInt64) (timeout : Nat) : ResponseStream :=
  { eventId := id, timeout := timeout, live := true, fut := none }

/-- Lines 88-90 of emit_metadata_with_response_stream.rs, one poll. -/
def pollStreamEmitting {P : Type} (env : Env P) (id : UInt64) (t : Nat) (em : EmitFuture P) :
    Poll (Outcome ResponseStream) × Fut (StreamStage P) × List Effect :=
  match em.poll env with
  | (.pending, em, eff) => (.pending, .running (.emitting em), eff)
  | (.panic, _, eff) => (.panic, .completed, eff)
  | (.ready (.err e), _, eff) => (.ready (.err e), .completed, eff)
  | (.ready .panic, _, eff) => (.panic, .completed, eff)
  | (.ready .hang, em, eff) => (.pending, .running (.emitting em), eff)
  | (.ready (.ok _), _, eff) => (.ready (.ok (ResponseStream.new id t)), .completed, eff)

/-- One poll of the block, emit_metadata_with_response_stream.rs:86-91. -/
def pollStreamBlock {P : Type} (env : Env P) (id : UInt64) (t : Nat) :
    Fut (StreamStage P) → Poll (Outcome ResponseStream) × Fut (StreamStage P) × List Effect
  | .completed => (.panic, .completed, [])
  | .running (.start em) =>
    let (r, f, eff) := pollStreamEmitting env id t em
    (r, f, .register id :: eff)
  | .running (.emitting em) => pollStreamEmitting env id t em

/-- `EmitMetadataWithResponseStream::poll`, emit_metadata_with_response_stream.rs:67-94. -/
def StreamFuture.poll {P : Type} (env : Env P) (s : StreamFuture P) :
    Poll (Outcome ResponseStream) × StreamFuture P × List Effect :=
  match s.fut with
  | some (id, t, f) =>
    let (r, f, eff) := pollStreamBlock env id t f
    (r, { s with fut := some (id, t, f) }, eff)
  | none =>
    match s.emitMetadata with
    | none => (.ready (.err .invalidState), s, [])
    | some em =>
      let s := { s with emitMetadata := none }
      match em.metadata.bind (·.ctx), em.metadata with
      | some ctx, some m =>
        let t := s.timeout.getD ctx.defaultReplyTimeout
        let s := { s with timeout := none }
        match m.getEvent env.enc env.freshId with
        | .err e => (.ready (.err e), s, [])
        | .panic => (.panic, s, [])
        | .hang => (.panic, s, [])
        | .ok (e, m) =>
          let (r, f, eff) := pollStreamBlock env e.id t (.running (.start { em with metadata := some m }))
          (r, { s with fut := some (e.id, t, f) }, eff)
      | _, _ => (.ready (.err .invalidState), s, [])

/-- The block of lines 115-130 of emit_metadata_with_response_stream.rs, one poll. -/
def pollNextBlock {P : Type} (env : Env P) (id : UInt64) (t : Nat) :
    Fut Unit → Poll (Outcome (Option Event)) × Fut Unit × List Effect
  | .completed => (.panic, .completed, [])
  | .running _ =>
    match selectReply env t with
    | .pending => (.pending, .running (), [])
    | .panic => (.panic, .completed, [])
    | .ready (.ok none) => (.ready (.ok none), .completed, [.unregister id])
    | .ready (.ok (some e)) =>
      (.ready (.ok (some e)), .completed, if e.eventType = .end then [.unregister id] else [])
    | .ready (.err e) => (.ready (.err e), .completed, [])
    | .ready .panic => (.panic, .completed, [])
    | .ready .hang => (.pending, .running (), [])

/-- `ResponseStream::poll_next`, emit_metadata_with_response_stream.rs:102-153. -/
def ResponseStream.pollNext {P : Type} (env : Env P) (s : ResponseStream) :
    Poll (Option (Outcome Event)) × ResponseStream × List Effect :=
  let go (s : ResponseStream) (f : Fut Unit) : Poll (Option (Outcome Event)) × ResponseStream × List Effect :=
    match pollNextBlock env s.eventId s.timeout f with
    | (.pending, f, eff) => (.pending, { s with fut := some f }, eff)
    | (.panic, f, eff) => (.panic, { s with fut := some f }, eff)
    | (.ready (.ok (some e)), _, eff) =>
      (.ready (some (.ok e)), { s with fut := none, live := decide (e.eventType ≠ .end) }, eff)
    | (.ready (.ok none), _, eff) => (.ready none, { s with fut := none }, eff)
    | (.ready (.err e), f, eff) => (.ready (some (.err e)), { s with fut := some f }, eff)
    | (.ready .panic, f, eff) => (.panic, { s with fut := some f }, eff)
    | (.ready .hang, f, eff) => (.pending, { s with fut := some f }, eff)
  match s.fut with
  | some f => go s f
  | none => if s.live then go { s with live := false } (.running ()) else (.ready none, s, [])

end Bromine
