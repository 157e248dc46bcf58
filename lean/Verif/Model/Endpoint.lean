import Verif.Model.Builder
/-
One side of the protocol: connections, reply listeners, requests waiting for replies, the receive loop of
every connection (`handle_connection`, src/ipc/mod.rs:18-60), handler tasks (`handle_event`,
src/ipc/mod.rs:63-101), and user tasks emitting events, interleaved in any way.

Granularity: emitting an event is one step (`out` grows by the event); Props/Wire.lean justifies this for
emits that are not broken off. Incoming bytes have already been decoded (Props/Frame.lean). Every access to the
shared listener map (a `DashMap`) and every channel operation is a step of its own.
-/
namespace Bromine.Endpoint

/-- Function update. -/
def upd {α β : Type} [DecidableEq α] (f : α → β) (a : α) (b : β) : α → β := fun x => if x = a then b else f x

/-- What does not change while the endpoint runs. -/
structure Config (CB : Type) where
  /-- the handler of `IPCServer`/`IPCClient` for events without (registered) namespace -/
  global : EventHandler CB
  namespaces : SMap (Namespace CB)
  /-- which listener map a connection uses: a server creates one per connection (server.rs:60), a client has
  one, the connections of a pooled client share one (builder.rs:251-260: `reply_listeners` is an `Arc` cloned
  into every client) -/
  group : Nat → Nat
  /-- the connection was made by `IPCClient::connect`, so its context has a stop sender (client.rs:47-52);
  server contexts have none (server.rs:66) -/
  client : Nat → Bool
  /-- the callback is the default one for error events, builder.rs:84-92 -/
  isDefaultError : CB → Bool
  /-- `format!("{:?}", e)`, ipc/mod.rs:88 -/
  fmtDebug : Error → String

/-- `await_reply` or `stream_replies`. -/
inductive ReqKind where
  | single
  | stream
deriving DecidableEq, Repr

/-- How a request ended. -/
inductive ReqEnd where
  /-- a reply was returned / the End event was yielded -/
  | replied
  | timeout
  /-- the event could not be written -/
  | failed
  | dropped
  /-- the channel was closed by the other side -/
  | closed
deriving DecidableEq, Repr

/-- Where a request is: emit_metadata_with_response.rs:55-75, emit_metadata_with_response_stream.rs:86-91 and
115-130. -/
inductive ReqPhase where
  /-- the listener is registered, the event is not yet written -/
  | registered
  /-- the event is written (waiting for a reply, or: the stream exists) -/
  | waiting
  /-- the last item has been taken from the channel (`none`: it was closed), the listener is about to be
  removed -/
  | closing (last : Option Event)
  /-- finished; the receiving end of the channel is gone -/
  | finished (how : ReqEnd)
deriving DecidableEq, Repr

/-- Who emitted an event. -/
inductive Origin where
  /-- code holding the connection's context -/
  | conn
  /-- code holding the context of handler task `t` -/
  | task (t : Nat)
  /-- the final answer of handler task `t` -/
  | final (t : Nat)
deriving DecidableEq, Repr

/-- A request: its channel has capacity 8 (context.rs:128) and holds `buf`; `popped` are the events taken
from it so far (returned to the caller, or yielded by the stream). `regAt` is a history variable: the number
of events that had been processed when the listener was registered. -/
structure Req where
  kind : ReqKind
  conn : Nat
  origin : Origin
  event : Event
  phase : ReqPhase
  buf : List Event
  popped : List Event
  regAt : Nat
deriving DecidableEq, Repr

/-- The receiving half of the channel exists. -/
def Req.alive (q : Req) : Bool :=
  match q.phase with
  | .finished _ => false
  | _ => true

/-- Where a handler task is, ipc/mod.rs:67-100. -/
inductive TaskPhase where
  /-- in line 68 -/
  | running
  /-- in line 72-75 or 82-92 -/
  | responding (res : Except Error Bytes)
  /-- before line 78; the result, and whether the final event was written -/
  | cleaning (res : Except Error Bytes) (sent : Bool)
  | done (res : Except Error Bytes) (sent : Bool)
  /-- the callback panicked; the task is gone -/
  | crashed

/-- A spawned handler task; `cb = none`: no callback is registered for the event's name. -/
structure Task (CB : Type) where
  conn : Nat
  event : Event
  cb : Option CB
  phase : TaskPhase

/-- The receive loop of a connection, ipc/mod.rs:24-58. -/
inductive Loop where
  /-- reading (line 24) -/
  | idle
  /-- in line 37, sending `e` to the channel of request `r` -/
  | sending (r : Nat) (e : Event)
  /-- the loop is over (read error, end of stream, or aborted by `stop`); `lost`: the event it held -/
  | ended (lost : Option Event)
deriving DecidableEq, Repr

/-- What became of a received event. -/
inductive Dest where
  | reply (r : Nat)
  | handler (t : Nat)
  | discarded
deriving DecidableEq, Repr

/-- A received event, after it has been dealt with. -/
structure Entry where
  conn : Nat
  event : Event
  dest : Dest
deriving DecidableEq, Repr

/-- An emitted event, in the order in which they go over the wire. -/
structure OutEntry where
  origin : Origin
  event : Event
deriving DecidableEq, Repr

/-- `arrived`, `processed` and `created` are history variables; `created` are the ids of the events created so far (by
`generate_event_id`, see Model/EventId.lean). -/
structure State (CB : Type) where
  inbox : Nat → List Event := fun _ => []
  arrived : Nat → List Event := fun _ => []
  loop : Nat → Loop := fun _ => .idle
  /-- `ReplyListeners`, context.rs:21: per listener map, event id ↦ request holding the receiver -/
  listeners : Nat → UInt64 → Option Nat := fun _ _ => none
  reqs : Nat → Option Req := fun _ => none
  /-- number of receive loops that hold a clone of the sender of request `r` (context.rs:154) -/
  clones : Nat → Nat := fun _ => 0
  tasks : Nat → Option (Task CB) := fun _ => none
  out : Nat → List OutEntry := fun _ => []
  processed : List Entry := []
  created : List UInt64 := []
  /-- the stop sender has been used (context.rs:138) -/
  stopped : Nat → Bool := fun _ => false

/-- Which context an emit is done on: the connection's own (no reference), or the clone given to a handler
(`set_ref_id`, ipc/mod.rs:64), which may be kept and used after the handler has finished. -/
inductive Ctx where
  | conn (c : Nat)
  | task (t : Nat)
deriving DecidableEq, Repr

inductive Op where
  /-- the peer's event arrives on connection `c` -/
  | arrive (c : Nat) (e : Event)
  /-- the receive loop of `c` takes the next event; `t` is the task number used if it spawns a handler -/
  | take (c t : Nat)
  /-- the receive loop of `c` completes `sender.send(event).await` -/
  | deliver (c t : Nat)
  /-- `await_reply` / `stream_replies` registers its listener -/
  | request (r : Nat) (ctx : Ctx) (kind : ReqKind) (ns : Option String) (name : String) (payload : Bytes) (id : UInt64)
  /-- its event is written -/
  | sent (r : Nat)
  /-- writing its event fails -/
  | sendFail (r : Nat)
  /-- it receives the next reply -/
  | recv (r : Nat)
  /-- it finds its channel closed -/
  | chanClosed (r : Nat)
  /-- it removes its listener and is done -/
  | finish (r : Nat)
  | timeout (r : Nat)
  | drop (r : Nat)
  /-- an event is emitted -/
  | emit (ctx : Ctx) (ns : Option String) (name : String) (payload : Bytes) (id : UInt64)
  /-- the handler of task `t` returns -/
  | handlerDone (t : Nat) (res : Except Error Bytes)
  | handlerPanic (t : Nat)
  /-- the final event of task `t` is written -/
  | respond (t : Nat) (id : UInt64)
  | respondFail (t : Nat)
  /-- line 78 -/
  | cleanup (t : Nat)
  /-- `Context::stop` on connection `c` -/
  | stop (c : Nat)
  /-- the task of client.rs:74-77 aborts the receive loop -/
  | abort (c : Nat)
  /-- reading fails (end of stream, corrupted data) -/
  | readEnd (c : Nat)

/-- The event emitted on a context with reference `ref` (context.rs:95-117; see `C16_emit`). -/
def ctxEvent (ref : Option UInt64) (ns : Option String) (name : String) (payload : Bytes) (id : UInt64) : Event :=
  match ref with
  | none => Event.new id ns name payload none .initiator
  | some r => Event.new id ns name payload (some r) .response

section
variable {CB : Type} (cfg : Config CB)

/-- The task runs a callback of the user: the default error callback (builder.rs:84-92) and the empty response
for events without callback (event_handler.rs:85-87) do not use the context. -/
def userCallback (k : Task CB) : Bool :=
  match k.cb with
  | some cb => !cfg.isDefaultError cb
  | none => false

/-- Connection and reference id of a context. -/
def ctxOf (s : State CB) : Ctx → Option (Nat × Option UInt64)
  | .conn c => some (c, none)
  | .task t =>
    match s.tasks t with
    | some k => if userCallback cfg k then some (k.conn, some k.event.id) else none
    | none => none

/-- The origin recorded for an emit on a context. -/
def Ctx.origin : Ctx → Origin
  | .conn _ => .conn
  | .task t => .task t

/-- Where the receive loop sends an event, ipc/mod.rs:31-57. -/
inductive Route (CB : Type) where
  | listener (r : Nat)
  | discard
  | handler (cb : Option CB)

/-- ipc/mod.rs:31-57. -/
def route (s : State CB) (c : Nat) (e : Event) : Route CB :=
  match e.referenceId.bind (s.listeners (cfg.group c)) with
  | some r => .listener r
  | none =>
    if e.eventType = .end then .discard
    else
      match e.ns.bind fun n => cfg.namespaces.get n with
      | some ns => .handler (ns.handler.callback e.name)
      | none => .handler (cfg.global.callback e.name)

/-- A handler task is spawned, ipc/mod.rs:63-67. -/
def spawn (s : State CB) (c : Nat) (e : Event) (cb : Option CB) (t : Nat) : Option (State CB) :=
  match s.tasks t with
  | some _ => none
  | none => some { s with tasks := upd s.tasks t (some { conn := c, event := e, cb := cb, phase := .running })
                          processed := s.processed ++ [{ conn := c, event := e, dest := .handler t }] }

/-- The results a handler can have: without a callback the empty response (event_handler.rs:85-87); the
default error callback decodes the payload and returns the empty response (builder.rs:84-92); any other
callback can return anything. -/
def resultPossible (k : Task CB) (res : Except Error Bytes) : Bool :=
  match k.cb, res with
  | none, .ok b => decide (b = [])
  | none, .error _ => false
  | some cb, res =>
    if cfg.isDefaultError cb then
      match k.event.payload errorPayload, res with
      | .ok _, .ok b => decide (b = [])
      | .err x, .error y => decide (x = y)
      | _, _ => false
    else true

/-- The final event of a handler task, ipc/mod.rs:72-75 and 82-92. -/
def finalEvent (k : Task CB) (res : Except Error Bytes) (id : UInt64) : Event :=
  match res with
  | .ok b => Event.new id none END_EVENT_NAME b (some k.event.id) .end
  | .error x =>
    let d : ErrorEventData := { code := 500, message := cfg.fmtDebug x }
    Event.new id none ERROR_EVENT_NAME (match d.intoPayload with | .ok b => b | _ => []) (some k.event.id) .error

/-- What follows the final event: after an `Ok` the listener map is cleaned (line 78), after an `Err` not. -/
def afterResponse (res : Except Error Bytes) (sent : Bool) : TaskPhase :=
  match res with
  | .ok _ => .cleaning res sent
  | .error _ => .done res sent

/-- Put `q` in place of request `r`. -/
def setReq (s : State CB) (r : Nat) (q : Req) : State CB := { s with reqs := upd s.reqs r (some q) }

/-- `reply_listeners.remove(&id)` on the listener map of connection `c`. -/
def unlisten (s : State CB) (c : Nat) (id : UInt64) : State CB :=
  { s with listeners := upd s.listeners (cfg.group c) (upd (s.listeners (cfg.group c)) id none) }

/-- One step of the endpoint; `none`: not possible now. -/
def step (s : State CB) : Op → Option (State CB)
  | .arrive c e => some { s with inbox := upd s.inbox c (s.inbox c ++ [e]), arrived := upd s.arrived c (s.arrived c ++ [e]) }
  | .take c t =>
    match s.loop c, s.inbox c with
    | .idle, e :: rest =>
      match route cfg s c e with
      | .listener r => some { s with inbox := upd s.inbox c rest, loop := upd s.loop c (.sending r e)
                                     clones := upd s.clones r (s.clones r + 1) }
      | .discard => some { s with inbox := upd s.inbox c rest
                                  processed := s.processed ++ [{ conn := c, event := e, dest := .discarded }] }
      | .handler cb => spawn { s with inbox := upd s.inbox c rest } c e cb t
    | _, _ => none
  | .deliver c t =>
    match s.loop c with
    | .sending r e =>
      match s.reqs r with
      | none => none
      | some q =>
        let s := { s with loop := upd s.loop c .idle, clones := upd s.clones r (s.clones r - 1) }
        if q.alive then
          if q.buf.length < 8 then
            some { setReq s r { q with buf := q.buf ++ [e] } with
                   processed := s.processed ++ [{ conn := c, event := e, dest := .reply r }] }
          else none
        else spawn s c e (cfg.global.callback e.name) t
    | _ => none
  | .request r ctx kind ns name payload id =>
    match s.reqs r, ctxOf cfg s ctx with
    | none, some (c, ref) =>
      let q : Req := { kind := kind, conn := c, origin := ctx.origin, event := ctxEvent ref ns name payload id
                       phase := .registered, buf := [], popped := [], regAt := s.processed.length }
      some { setReq s r q with
             listeners := upd s.listeners (cfg.group c) (upd (s.listeners (cfg.group c)) id (some r))
             created := s.created ++ [id] }
    | _, _ => none
  | .sent r =>
    match s.reqs r with
    | some q =>
      if q.phase = .registered then
        some { setReq s r { q with phase := .waiting } with
               out := upd s.out q.conn (s.out q.conn ++ [{ origin := q.origin, event := q.event }]) }
      else none
    | none => none
  | .sendFail r =>
    match s.reqs r with
    | some q => if q.phase = .registered then some (setReq s r { q with phase := .finished .failed }) else none
    | none => none
  | .recv r =>
    match s.reqs r with
    | some q =>
      if q.phase = .waiting then
        match q.buf with
        | [] => none
        | e :: rest =>
          some (setReq s r { q with buf := rest, popped := q.popped ++ [e]
                                    phase := if q.kind = .single ∨ e.eventType = .end then .closing (some e) else .waiting })
      else none
    | none => none
  | .chanClosed r =>
    match s.reqs r with
    | some q =>
      if q.phase = .waiting ∧ q.buf = [] ∧ s.listeners (cfg.group q.conn) q.event.id ≠ some r ∧ s.clones r = 0 then
        some (setReq s r { q with phase := if q.kind = .single then .finished .closed else .closing none })
      else none
    | none => none
  | .finish r =>
    match s.reqs r with
    | some q =>
      match q.phase with
      | .closing last =>
        some (unlisten cfg (setReq s r { q with phase := .finished (if last.isSome then .replied else .closed) })
          q.conn q.event.id)
      | _ => none
    | none => none
  | .timeout r =>
    match s.reqs r with
    | some q => if q.phase = .waiting then some (setReq s r { q with phase := .finished .timeout }) else none
    | none => none
  | .drop r =>
    match s.reqs r with
    | some q =>
      if q.phase = .registered ∨ q.phase = .waiting then some (setReq s r { q with phase := .finished .dropped }) else none
    | none => none
  | .emit ctx ns name payload id =>
    match ctxOf cfg s ctx with
    | some (c, ref) =>
      some { s with out := upd s.out c (s.out c ++ [{ origin := ctx.origin, event := ctxEvent ref ns name payload id }])
                    created := s.created ++ [id] }
    | none => none
  | .handlerDone t res =>
    match s.tasks t with
    | some k =>
      match k.phase with
      | .running =>
        if resultPossible cfg k res then
          some { s with tasks := upd s.tasks t (some { k with phase := .responding res }) }
        else none
      | _ => none
    | none => none
  | .handlerPanic t =>
    match s.tasks t with
    | some k =>
      match k.phase, k.cb with
      | .running, some cb =>
        if cfg.isDefaultError cb then none
        else some { s with tasks := upd s.tasks t (some { k with phase := .crashed }) }
      | _, _ => none
    | none => none
  | .respond t id =>
    match s.tasks t with
    | some k =>
      match k.phase with
      | .responding res =>
        some { s with tasks := upd s.tasks t (some { k with phase := afterResponse res true })
                      out := upd s.out k.conn (s.out k.conn ++ [{ origin := .final t, event := finalEvent cfg k res id }])
                      created := s.created ++ [id] }
      | _ => none
    | none => none
  | .respondFail t =>
    match s.tasks t with
    | some k =>
      match k.phase with
      | .responding res => some { s with tasks := upd s.tasks t (some { k with phase := afterResponse res false }) }
      | _ => none
    | none => none
  | .cleanup t =>
    match s.tasks t with
    | some k =>
      match k.phase with
      | .cleaning res sent =>
        some (unlisten cfg { s with tasks := upd s.tasks t (some { k with phase := .done res sent }) } k.conn k.event.id)
      | _ => none
    | none => none
  | .stop c => some (if cfg.client c then { s with stopped := upd s.stopped c true } else s)
  | .abort c =>
    if s.stopped c then
      match s.loop c with
      | .idle => some { s with loop := upd s.loop c (.ended none) }
      | .sending r e => some { s with loop := upd s.loop c (.ended (some e)), clones := upd s.clones r (s.clones r - 1) }
      | .ended _ => none
    else none
  | .readEnd c =>
    match s.loop c, s.inbox c with
    | .idle, [] => some { s with loop := upd s.loop c (.ended none) }
    | _, _ => none

/-- Run a sequence of steps. -/
def run : State CB → List Op → Option (State CB)
  | s, [] => some s
  | s, op :: ops => (step cfg s op).bind fun s => run s ops

/-- The states an endpoint can get into. -/
def Reachable (s : State CB) : Prop := ∃ ops, run cfg {} ops = some s

end
end Bromine.Endpoint
