import Verif.Model.Emit
import Verif.Model.Endpoint
/-
The futures of Model/Emit.lean (poll by poll, as in src/ipc/stream_emitter) running against the state of Model/Endpoint.lean: one request, made on the context `ctx`, whose future is polled
at any time, while everything else in the process goes on, also between the effects of one poll.
-/
namespace Bromine.Refine
open Endpoint

/-- The future of a request: `await_reply`, `stream_replies`, or the stream that the latter has returned. -/
inductive ReqFut (P : Type) where
  | reply (f : ReplyFuture P)
  | stream (f : StreamFuture P)
  | items (x : ResponseStream)

/-- What its owner gets from a poll. -/
inductive Got where
  | pending
  | panic
  | reply (r : Outcome Event)
  /-- `stream_replies` is over: `ok`: there is a stream -/
  | opened (r : Outcome Unit)
  | item (r : Option (Outcome Event))

/-- One poll (or `poll_next`). When `stream_replies` is ready its owner goes on with the stream. -/
def ReqFut.poll {P : Type} (env : Env P) : ReqFut P → Got × ReqFut P × List Effect
  | .reply f =>
    match f.poll env with
    | (.pending, f, eff) => (.pending, .reply f, eff)
    | (.panic, f, eff) => (.panic, .reply f, eff)
    | (.ready r, f, eff) => (.reply r, .reply f, eff)
  | .stream f =>
    match f.poll env with
    | (.pending, f, eff) => (.pending, .stream f, eff)
    | (.panic, f, eff) => (.panic, .stream f, eff)
    | (.ready (.ok x), _, eff) => (.opened (.ok ()), .items x, eff)
    | (.ready (.err e), f, eff) => (.opened (.err e), .stream f, eff)
    | (.ready .panic, f, eff) => (.panic, .stream f, eff)
    | (.ready .hang, f, eff) => (.pending, .stream f, eff)
  | .items x =>
    match x.pollNext env with
    | (.pending, x, eff) => (.pending, .items x, eff)
    | (.panic, x, eff) => (.panic, .items x, eff)
    | (.ready r, x, eff) => (.item r, .items x, eff)

/-- What a poll does to, and learns from, the rest of the process. -/
inductive Act where
  /-- the listener for event `e` is inserted -/
  | register (e : Event)
  /-- `e` is written -/
  | sent (e : Event)
  /-- writing `e` has failed -/
  | failed (e : Event)
  /-- the channel yields `e` -/
  | got (e : Event)
  /-- the channel is closed -/
  | closed
  /-- the timer has fired -/
  | timedOut
  /-- the listener is removed -/
  | unregister (id : UInt64)
  /-- the future is dropped (not an act of a poll) -/
  | dropped
deriving DecidableEq, Repr

/-- Acts of the effects of a poll before the channel is looked at. -/
def writeActs {P : Type} (env : Env P) : List Effect → List Act
  | [] => []
  | .register id :: l =>
    -- the event that is registered is the one that is written in the same poll
    (match l.findSome? (fun | .write e => some e | _ => none) with
      | some e => if e.id = id then [.register e] else []
      | none => []) ++ writeActs env l
  | .write e :: l =>
    (match env.writing e with
      | .ready (.ok _) => [.sent e]
      | .ready (.err _) => [.failed e]
      | _ => []) ++ writeActs env l
  | .unregister _ :: l => writeActs env l

/-- The `select!` (emit_metadata_with_response.rs:59-66, emit_metadata_with_response_stream.rs:116-123) is reached in this poll: with which timeout. -/
def selects {P : Type} (env : Env P) (eff : List Effect) : ReqFut P → ReqFut P → Option Nat
  | .reply f, .reply f' =>
    match f.fut, f'.fut with
    | some (_, t, .running .selecting), _ => some t
    | some (_, _, .completed), _ => none
    | _, some (_, t, _) =>
      if eff.any (fun | .write e => (match env.writing e with | .ready (.ok _) => true | _ => false) | _ => false) then some t else none
    | _, none => none
  | .items x, _ =>
    match x.fut with
    | some (.running _) => some x.timeout
    | some .completed => none
    | none => if x.live then some x.timeout else none
  | _, _ => none

/-- The acts of a poll, in order. -/
def acts {P : Type} (env : Env P) (pre post : ReqFut P) (eff : List Effect) : List Act :=
  writeActs env eff ++
  (match selects env eff pre post with
    | none => []
    | some t =>
      match selectReply env t with
      | .ready (.ok (some e)) => [.got e]
      | .ready (.ok none) => [.closed]
      | .ready (.err _) => [.timedOut]
      | _ => []) ++
  eff.filterMap (fun | .unregister id => some (.unregister id) | _ => none)

/-- The process, one request of it, and what is left to do of the current poll. -/
structure M (CB P : Type) where
  s : Endpoint.State CB
  fut : ReqFut P
  todo : List Act
  /-- the future has been dropped -/
  gone : Bool := false

/-- The parameters of the request: its number in the endpoint model, the context it is made on, connection and reference id of that context, and the arguments of `emit` / `emit_to`. -/
structure Params (P : Type) where
  r : Nat
  ctx : Endpoint.Ctx
  conn : Nat
  ref : Option UInt64
  kind : ReqKind
  ns : Option String
  name : String
  payload : P
  /-- `default_reply_timeout` of the context -/
  timeout : Nat

/-- `ctx.emit(name, payload)` or `ctx.emit_to(ns, name, payload)`, context.rs:95-117. -/
def Params.emit {P : Type} (a : Params P) : EmitFuture P :=
  EmitFuture.new (match a.ns with
    | none => Context.emit { refId := a.ref, defaultReplyTimeout := a.timeout } a.name a.payload
    | some n => Context.emitTo { refId := a.ref, defaultReplyTimeout := a.timeout } n a.name a.payload)

/-- The request as the user makes it, with or without `with_timeout`. -/
def Params.start {P : Type} (a : Params P) (t : Option Nat) : ReqFut P :=
  match a.kind, t with
  | .single, none => .reply a.emit.awaitReply
  | .single, some t => .reply (a.emit.awaitReply.withTimeout t)
  | .stream, none => .stream a.emit.streamReplies
  | .stream, some t => .stream (a.emit.streamReplies.withTimeout t)

/-- The step of the endpoint model that an act is. -/
def opOf {P : Type} (a : Params P) : Act → Endpoint.Op
  | .register e => .request a.r a.ctx a.kind a.ns a.name e.data e.id
  | .sent _ => .sent a.r
  | .failed _ => .sendFail a.r
  | .got _ => .recv a.r
  | .closed => .chanClosed a.r
  | .timedOut => .timeout a.r
  | .unregister _ => .finish a.r
  | .dropped => .drop a.r

/-- What the act says about the channel is true of the process: tokio's `recv` yields the oldest event in the channel; `None` if it is empty and no sender is left (neither in the listener map
nor in a receive loop). -/
def Truthful {CB P : Type} (cfg : Config CB) (a : Params P) (s : Endpoint.State CB) : Act → Prop
  | .got e => ∃ q rest, s.reqs a.r = some q ∧ q.buf = e :: rest
  | .closed => ∃ q, s.reqs a.r = some q ∧ q.buf = [] ∧ s.listeners (cfg.group q.conn) q.event.id ≠ some a.r ∧ s.clones a.r = 0
  | _ => True

/-- A step of the endpoint that belongs to request `r`. -/
def owns (r : Nat) : Endpoint.Op → Bool
  | .request r' .. | .sent r' | .sendFail r' | .recv r' | .chanClosed r' | .finish r' | .timeout r' | .drop r' => decide (r' = r)
  | _ => false

/-- The write half and the channel do not panic, and are pending rather than "never ready". -/
structure Sane {P : Type} (env : Env P) : Prop where
  writing : ∀ e, env.writing e = .pending ∨ env.writing e = .ready (.ok ()) ∨ ∃ x, env.writing e = .ready (.err x)
  channel : env.channel ≠ .panic

/-- One step of the process. -/
inductive Step {CB P : Type} (cfg : Config CB) (a : Params P) : M CB P → M CB P → Prop
  /-- the future is polled; what it does follows -/
  | poll {m : M CB P} (env : Env P) (hs : Sane env) (hg : m.gone = false) (ht : m.todo = []) :
      Step cfg a m { m with fut := (m.fut.poll env).2.1, todo := acts env m.fut (m.fut.poll env).2.1 (m.fut.poll env).2.2 }
  /-- the next act of the poll -/
  | act {m : M CB P} {x : Act} {rest : List Act} {s' : Endpoint.State CB} (ht : m.todo = x :: rest) (hx : Truthful cfg a m.s x)
      (hs : Endpoint.step cfg m.s (opOf a x) = some s') : Step cfg a m { m with s := s', todo := rest }
  /-- something else happens in the process -/
  | other {m : M CB P} {op : Endpoint.Op} {s' : Endpoint.State CB} (ho : owns a.r op = false) (hs : Endpoint.step cfg m.s op = some s') : Step cfg a m { m with s := s' }
  /-- the future is dropped, between polls: a step of the endpoint if that is possible, otherwise nothing (the listener is not registered, or the request is over) -/
  | drop {m : M CB P} (hg : m.gone = false) (ht : m.todo = []) : Step cfg a m { m with s := (Endpoint.step cfg m.s (.drop a.r)).getD m.s, gone := true }

/-- The states that a process can get into in which the request is made on a context that exists. -/
inductive Reach {CB P : Type} (cfg : Config CB) (a : Params P) : M CB P → Prop
  | init {s : Endpoint.State CB} (t : Option Nat) (h : Endpoint.Reachable cfg s) (hr : s.reqs a.r = none) (hc : ctxOf cfg s a.ctx = some (a.conn, a.ref)) :
      Reach cfg a { s := s, fut := a.start t, todo := [] }
  | step {m m' : M CB P} (h : Reach cfg a m) (hs : Step cfg a m m') : Reach cfg a m'

end Bromine.Refine
