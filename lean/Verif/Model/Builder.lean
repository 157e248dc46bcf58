import Verif.Model.Payload
/-
`src/events/event_handler.rs`, `src/namespaces/*.rs`, `src/ipc/builder.rs`, `src/macros.rs`.
Callbacks are values of an abstract type `CB`.
-/
namespace Bromine

/-- A Rust `HashMap<String, V>`: an association list in which a key occurs at most once. Only `insert`,
`get` and iteration over the keys are used by the code. -/
abbrev SMap (V : Type) := List (String × V)

/-- `HashMap::insert`: replaces the value of an existing key. -/
def SMap.insert {V : Type} (m : SMap V) (k : String) (v : V) : SMap V :=
  match m with
  | [] => [(k, v)]
  | (k', v') :: m => if k' = k then (k, v) :: m else (k', v') :: SMap.insert m k v

/-- `HashMap::get`. -/
def SMap.get {V : Type} (m : SMap V) (k : String) : Option V :=
  match m with
  | [] => none
  | (k', v') :: m => if k' = k then some v' else SMap.get m k

/-- `EventHandler`, event_handler.rs:43-45. -/
structure EventHandler (CB : Type) where
  callbacks : SMap CB := []

/-- `EventHandler::new`, event_handler.rs:61-63. -/
def EventHandler.new {CB : Type} : EventHandler CB := {}

/-- `EventHandler::on`, event_handler.rs:67-77. -/
def EventHandler.on {CB : Type} (h : EventHandler CB) (name : String) (cb : CB) : EventHandler CB :=
  { h with callbacks := h.callbacks.insert name cb }

/-- The callback that `EventHandler::handle_event`, event_handler.rs:82-88, runs; `none`: the answer is
`Ok(Response::empty())` without running anything. -/
def EventHandler.callback {CB : Type} (h : EventHandler CB) (name : String) : Option CB :=
  h.callbacks.get name

/-- `Namespace`, namespace.rs:5-8. -/
structure Namespace (CB : Type) where
  name : String
  handler : EventHandler CB

/-- `ERROR_EVENT_NAME`, error_event.rs:11. -/
def ERROR_EVENT_NAME : String := "error"
/-- `END_EVENT_NAME`, error_event.rs:12. -/
def END_EVENT_NAME : String := "end"

/-- `IPCBuilder`, builder.rs:60-70. Shared data, and the listener and stream options, are opaque (`Opts`). -/
structure IPCBuilder (CB Addr Opts : Type) where
  handler : EventHandler CB
  address : Option Addr
  namespaces : SMap (Namespace CB)
  timeoutMs : Nat
  defaultSerializer : Format
  listenerOptions : Opts
  streamOptions : Opts

/-- A call on an `IPCBuilder` (or a complete `namespace(..).on(..)*.build()` chain). -/
inductive BuilderOp (CB Addr Opts : Type) where
  | on (name : String) (cb : CB)
  | address (a : Addr)
  | addNamespace (ns : Namespace CB)
  | namespace (name : String) (ons : List (String × CB))
  | timeout (ms : Nat)
  | defaultSerializer (f : Format)
  | serverOptions (o : Opts)
  | clientOptions (o : Opts)

section
variable {CB Addr Opts : Type}

/-- `IPCBuilder::new`, builder.rs:82-104; `defaultError` is the callback of lines 84-92, `first` the result
of `DynamicSerializer::first_available()`, `dflt` the default options. -/
def IPCBuilder.new (defaultError : CB) (first : Format) (dflt : Opts) : IPCBuilder CB Addr Opts where
  handler := EventHandler.new.on ERROR_EVENT_NAME defaultError
  address := none
  namespaces := []
  timeoutMs := 60000
  defaultSerializer := first
  listenerOptions := dflt
  streamOptions := dflt

/-- `NamespaceBuilder::new/on`, namespaces/builder.rs:22-43; also `Namespace::from_provider`
(provider_trait.rs:10-16), whose `register` is a sequence of `on` calls. -/
def nsHandler (ons : List (String × CB)) : EventHandler CB :=
  ons.foldl (fun h p => h.on p.1 p.2) EventHandler.new

/-- `IPCBuilder::add_namespace`, builder.rs:154-159. -/
def IPCBuilder.addNamespace (b : IPCBuilder CB Addr Opts) (ns : Namespace CB) : IPCBuilder CB Addr Opts :=
  { b with namespaces := b.namespaces.insert ns.name ns }

/-- One builder call: builder.rs:127-192 and namespaces/builder.rs:22-51. -/
def IPCBuilder.apply (b : IPCBuilder CB Addr Opts) : BuilderOp CB Addr Opts → IPCBuilder CB Addr Opts
  | .on name cb => { b with handler := b.handler.on name cb }
  | .address a => { b with address := some a }
  | .addNamespace ns => b.addNamespace ns
  | .namespace name ons => b.addNamespace { name := name, handler := nsHandler ons }
  | .timeout ms => { b with timeoutMs := ms }
  | .defaultSerializer f => { b with defaultSerializer := f }
  | .serverOptions o => { b with listenerOptions := o }
  | .clientOptions o => { b with streamOptions := o }

/-- `IPCBuilder::validate`, builder.rs:276-282. -/
def IPCBuilder.validate (b : IPCBuilder CB Addr Opts) : Outcome Unit :=
  if b.address.isNone then .err (.build "Missing Address") else .ok ()

/-- Network operations a build performs: binding a listener or attempting a connection. -/
inductive NetOp (Addr Opts : Type) where
  | bind (a : Addr) (o : Opts)
  | connect (a : Addr) (o : Opts)
deriving DecidableEq

/-- `IPCBuilder::build_server` up to `IPCServer::start`'s bind, builder.rs:196-212 and server.rs:35-40.
`net` decides how the bind ends. `Option::unwrap` of a missing address would panic. -/
def IPCBuilder.buildServer {L : Type} (b : IPCBuilder CB Addr Opts) (net : NetOp Addr Opts → Outcome L) :
    List (NetOp Addr Opts) × Outcome L :=
  match b.validate with
  | .ok _ =>
    match b.address with
    | none => ([], .panic)
    | some a => let op := .bind a b.listenerOptions; ([op], net op)
  | .err e => ([], .err e)
  | .panic => ([], .panic)
  | .hang => ([], .hang)

/-- `IPCBuilder::build_client`, builder.rs:216-236 (`IPCClient::connect`, client.rs:37-80, starts with
`protocol_connect`, everything after it cannot fail). -/
def IPCBuilder.buildClient {C : Type} (b : IPCBuilder CB Addr Opts) (net : NetOp Addr Opts → Outcome C) :
    List (NetOp Addr Opts) × Outcome C :=
  match b.validate with
  | .ok _ =>
    match b.address with
    | none => ([], .panic)
    | some a => let op := .connect a b.streamOptions; ([op], net op)
  | .err e => ([], .err e)
  | .panic => ([], .panic)
  | .hang => ([], .hang)

/-- The loop in `build_pooled_client`, builder.rs:253-269: `n` connections still to make, `i` made. The
result of a connection attempt may depend on its number. -/
def connectLoop {C : Type} (op : NetOp Addr Opts) (net : Nat → Outcome C) :
    Nat → Nat → List C → List (NetOp Addr Opts) × Outcome (List C)
  | 0, _, cs => ([], .ok cs)
  | n + 1, i, cs =>
    match net i with
    | .ok c =>
      let (ops, r) := connectLoop op net n (i + 1) (cs ++ [c])
      (op :: ops, r)
    | .err e => ([op], .err e)
    | .panic => ([op], .panic)
    | .hang => ([op], .hang)

/-- `IPCBuilder::build_pooled_client`, builder.rs:243-272. -/
def IPCBuilder.buildPooledClient {C : Type} (b : IPCBuilder CB Addr Opts) (poolSize : Nat)
    (net : Nat → Outcome C) : List (NetOp Addr Opts) × Outcome (List C) :=
  if poolSize = 0 then ([], .err (.build "Pool size must be greater than 0"))
  else
    match b.validate with
    | .ok _ =>
      match b.address with
      | none => ([], .panic)
      | some a => connectLoop (.connect a b.streamOptions) net poolSize 0 []
    | .err e => ([], .err e)
    | .panic => ([], .panic)
    | .hang => ([], .hang)

end
end Bromine
