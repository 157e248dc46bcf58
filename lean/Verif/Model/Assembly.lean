import Verif.Model.Builder
import Verif.Model.Endpoint
/-
What the build functions put together: which `Arc`s the contexts of a process share, and which settings they carry (builder.rs, client.rs:37-80, server.rs:35-80,
context.rs:35-75), and the data that is shared through them.

An `Arc` is a number; `next` is the next one that `Arc::new` returns. What connections carry is in Model/Endpoint.lean, how long they live in Model/Life.lean.
-/
namespace Bromine.Assembly

/-- `SendSyncTypeMap`: at most one value for every key type. A key type is a value of `K`; `V` is the sum of the value types. -/
abbrev TypeMap (K V : Type) := K → Option V

/-- `insert`. -/
def TypeMap.insert {K V : Type} [DecidableEq K] (m : TypeMap K V) (k : K) (v : V) : TypeMap K V := fun k' => if k' = k then some v else m k'

/-- `remove`. -/
def TypeMap.remove {K V : Type} [DecidableEq K] (m : TypeMap K V) (k : K) : TypeMap K V := fun k' => if k' = k then none else m k'

/-- `Context`, context.rs:36-53. -/
structure Ctx where
  /-- `emitter`: the write half of the connection -/
  stream : Nat
  data : Nat
  stopSender : Nat
  replyListeners : Nat
  replyTimeout : Nat
  refId : Option UInt64
  serializer : Format
deriving DecidableEq, Repr

/-- The builder with its `data`, builder.rs:64. -/
structure Builder (CB Addr Opts K V : Type) where
  base : IPCBuilder CB Addr Opts
  data : TypeMap K V

/-- A call on the builder. -/
inductive BOp (CB Addr Opts K V : Type) where
  | base (op : BuilderOp CB Addr Opts)
  /-- `insert`, builder.rs:107-114 -/
  | insert (k : K) (v : V)
  /-- `insert_all`, builder.rs:117-124 -/
  | insertAll (entries : List (K × V))

/-- What `handle_connection` gets, ipc/mod.rs:18-23. -/
structure Conn (CB : Type) where
  ctx : Ctx
  global : EventHandler CB
  namespaces : SMap (Namespace CB)

/-- `IPCClient`, client.rs:22-31. -/
structure Client (CB : Type) where
  global : EventHandler CB
  namespaces : SMap (Namespace CB)
  data : Nat
  replyListeners : Nat
  timeoutMs : Nat
  serializer : Format

/-- The variables of the loop in `IPCServer::start`, server.rs:41-43. -/
structure Listening (CB : Type) where
  global : EventHandler CB
  namespaces : SMap (Namespace CB)
  data : Nat
  timeoutMs : Nat
  serializer : Format

/-- A process with what one build made. -/
structure Proc (CB K V : Type) where
  next : Nat
  /-- the contents of the cells of shared data -/
  data : Nat → TypeMap K V
  /-- the cell holds a stop sender -/
  sender : Nat → Bool
  /-- connections in the order in which they were made -/
  conns : List (Conn CB)
  /-- contexts of the user and of handlers, by a number that the user gives them -/
  ctxs : Nat → Option Ctx
  listening : Option (Listening CB)
  /-- the connections (their write halves) on whose contexts `stop` was called (history variable) -/
  stopCalls : List Nat

section
variable {CB Addr Opts K V : Type} [DecidableEq K]

/-- `IPCBuilder::new`, builder.rs:82-104. -/
def Builder.new (defaultError : CB) (first : Format) (dflt : Opts) : Builder CB Addr Opts K V :=
  { base := IPCBuilder.new defaultError first dflt, data := fun _ => none }

/-- builder.rs:107-192. -/
def Builder.apply (b : Builder CB Addr Opts K V) : BOp CB Addr Opts K V → Builder CB Addr Opts K V
  | .base op => { b with base := b.base.apply op }
  | .insert k v => { b with data := b.data.insert k v }
  | .insertAll es => { b with data := es.foldl (fun m p => m.insert p.1 p.2) b.data }

/-- Nothing made yet but the cell of data, builder.rs:218, 248, server.rs:43. -/
def Proc.init (data : TypeMap K V) : Proc CB K V :=
  { next := 1, data := fun a => if a = 0 then data else fun _ => none, sender := fun _ => false, conns := [], ctxs := fun _ => none, listening := none,
    stopCalls := [] }

/-- `Context::new`, context.rs:56-75. -/
def Ctx.new (stream data stopSender replyListeners replyTimeout : Nat) (serializer : Format) : Ctx :=
  { stream, data, stopSender, replyListeners, replyTimeout, refId := none, serializer }

/-- `IPCClient::connect` once the stream is connected, client.rs:43-79. -/
def Proc.connect (p : Proc CB K V) (cl : Client CB) : Proc CB K V × Ctx :=
  let stream := p.next
  let stop := p.next + 1
  let ctx := Ctx.new stream cl.data stop cl.replyListeners cl.timeoutMs cl.serializer
  ({ p with next := p.next + 2, sender := fun a => if a = stop then true else p.sender a, conns := p.conns ++ [⟨ctx, cl.global, cl.namespaces⟩] }, ctx)

/-- The user gets a context. -/
def Proc.give (p : Proc CB K V) (h : Nat) (c : Ctx) : Proc CB K V := { p with ctxs := fun h' => if h' = h then some c else p.ctxs h' }

/-- `build_client`, builder.rs:216-236. -/
def Builder.buildClient (b : Builder CB Addr Opts K V) (net : NetOp Addr Opts → Outcome Unit) : Outcome (Proc CB K V) :=
  match (b.base.buildClient net).2 with
  | .ok _ =>
    let p : Proc CB K V := { Proc.init b.data with next := 2 }
    let r := p.connect ⟨b.base.handler, b.base.namespaces, 0, 1, b.base.timeoutMs, b.base.defaultSerializer⟩
    .ok (r.1.give 0 r.2)
  | .err e => .err e
  | .panic => .panic
  | .hang => .hang

/-- The loop of `build_pooled_client`, builder.rs:253-269. -/
def poolLoop (cl : Client CB) (net : Nat → Outcome Unit) : Nat → Nat → Proc CB K V → Outcome (Proc CB K V)
  | 0, _, p => .ok p
  | n + 1, i, p =>
    match net i with
    | .ok _ => let r := p.connect cl; poolLoop cl net n (i + 1) (r.1.give i r.2)
    | .err e => .err e
    | .panic => .panic
    | .hang => .hang

/-- `build_pooled_client`, builder.rs:243-272. -/
def Builder.buildPooledClient (b : Builder CB Addr Opts K V) (poolSize : Nat) (net : Nat → Outcome Unit) : Outcome (Proc CB K V) :=
  if poolSize = 0 then .err (.build "Pool size must be greater than 0")
  else
    match b.base.validate with
    | .ok _ =>
      match b.base.address with
      | none => .panic
      | some _ =>
        poolLoop ⟨b.base.handler, b.base.namespaces, 0, 1, b.base.timeoutMs, b.base.defaultSerializer⟩ net poolSize 0 { Proc.init b.data with next := 2 }
    | .err e => .err e
    | .panic => .panic
    | .hang => .hang

/-- `build_server` and `IPCServer::start` until the loop, builder.rs:196-212, server.rs:40-43. -/
def Builder.buildServer (b : Builder CB Addr Opts K V) (net : NetOp Addr Opts → Outcome Unit) : Outcome (Proc CB K V) :=
  match (b.base.buildServer net).2 with
  | .ok _ => .ok { Proc.init b.data with listening := some ⟨b.base.handler, b.base.namespaces, 0, b.base.timeoutMs, b.base.defaultSerializer⟩ }
  | .err e => .err e
  | .panic => .panic
  | .hang => .hang

inductive Op (K V : Type) where
  /-- a server accepts a connection, server.rs:46-77 -/
  | accept
  /-- an event of the connection is given to a handler, whose context is `h`, ipc/mod.rs:63-64 -/
  | event (conn h : Nat) (id : UInt64)
  | clone (h new : Nat)
  /-- the public field `default_reply_timeout`, context.rs:47 -/
  | setTimeout (h ms : Nat)
  /-- the public field `default_serializer`, context.rs:52 -/
  | setSerializer (h : Nat) (f : Format)
  /-- `ctx.data.write().await.insert::<K>(v)`, or `remove::<K>()` -/
  | write (h : Nat) (k : K) (v : Option V)
  /-- `stop(self)`, context.rs:136-143 -/
  | stop (h : Nat)
  | drop (h : Nat)

/-- One step. -/
def step (p : Proc CB K V) : Op K V → Option (Proc CB K V)
  | .accept =>
    match p.listening with
    | some l =>
      let ctx := Ctx.new p.next l.data (p.next + 1) (p.next + 2) l.timeoutMs l.serializer
      some { p with next := p.next + 3, sender := fun a => if a = p.next + 1 then false else p.sender a, conns := p.conns ++ [⟨ctx, l.global, l.namespaces⟩] }
    | none => none
  | .event c h id =>
    match p.conns[c]?, p.ctxs h with
    | some cn, none => some (p.give h { cn.ctx with refId := some id })
    | _, _ => none
  | .clone h new =>
    match p.ctxs h, p.ctxs new with
    | some c, none => some (p.give new c)
    | _, _ => none
  | .setTimeout h ms =>
    match p.ctxs h with
    | some c => some (p.give h { c with replyTimeout := ms })
    | none => none
  | .setSerializer h f =>
    match p.ctxs h with
    | some c => some (p.give h { c with serializer := f })
    | none => none
  | .write h k v =>
    match p.ctxs h with
    | some c => some { p with data := fun a => if a = c.data then (match v with | some v => (p.data a).insert k v | none => (p.data a).remove k) else p.data a }
    | none => none
  | .stop h =>
    match p.ctxs h with
    | some c =>
      some { p with sender := fun a => if a = c.stopSender then false else p.sender a, stopCalls := p.stopCalls ++ [c.stream],
                    ctxs := fun h' => if h' = h then none else p.ctxs h' }
    | none => none
  | .drop h =>
    match p.ctxs h with
    | some _ => some { p with ctxs := fun h' => if h' = h then none else p.ctxs h' }
    | none => none

/-- Run a sequence of steps. -/
def run : Proc CB K V → List (Op K V) → Option (Proc CB K V)
  | p, [] => some p
  | p, op :: ops => (step p op).bind fun p => run p ops

/-- `ctx.data.read().await.get::<K>()`. -/
def Proc.read (p : Proc CB K V) (h : Nat) (k : K) : Option V := (p.ctxs h).bind fun c => p.data c.data k

/-- The parameters of Model/Endpoint.lean for this process: which listener map a connection uses, and whether its context has a stop sender. A connection that does not
exist yet will get a new listener map. That all connections have the handlers of the builder is a theorem (C66_settings). -/
def Proc.config (p : Proc CB K V) (b : IPCBuilder CB Addr Opts) (isDefaultError : CB → Bool) (fmtDebug : Error → String) : Endpoint.Config CB :=
  { global := b.handler, namespaces := b.namespaces, isDefaultError, fmtDebug,
    group := fun c => match p.conns[c]? with | some cn => cn.ctx.replyListeners | none => p.next + c,
    client := fun _ => p.listening.isNone }

end
end Bromine.Assembly
