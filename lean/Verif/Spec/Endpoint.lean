import Verif.Model.Endpoint
/-
Vocabulary for the properties of an endpoint.
-/
namespace Bromine.Spec
open Bromine.Endpoint

variable {CB : Type}

/-- The events delivered to request `r`, in the order of delivery. -/
def delivered (s : State CB) (r : Nat) : List Event :=
  (s.processed.filter fun x => decide (x.dest = .reply r)).map (·.event)

/-- The received event `x` refers to the request `q`, and came in on a connection that uses the same listener
map (on a server: the same connection). -/
def answers (cfg : Config CB) (q : Req) (x : Entry) : Bool :=
  decide (x.event.referenceId = some q.event.id) && decide (cfg.group x.conn = cfg.group q.conn)

/-- The ids of requests that use the same listener map are different (see C14), and no event handled on such a
connection has the id of a request. -/
structure FreshIds (cfg : Config CB) (s : State CB) : Prop where
  distinct : ∀ r r' q q', s.reqs r = some q → s.reqs r' = some q' → cfg.group q.conn = cfg.group q'.conn →
    q.event.id = q'.event.id → r = r'
  noCollision : ∀ t k r q, s.tasks t = some k → s.reqs r = some q → cfg.group k.conn = cfg.group q.conn →
    k.event.id ≠ q.event.id

/-- The received events of connection `c` that have been dealt with, in order. -/
def handledOn (s : State CB) (c : Nat) : List Event :=
  (s.processed.filter fun x => decide (x.conn = c)).map (·.event)

/-- The event that the receive loop of a connection holds while it waits for room in a channel, or held when it
was aborted. -/
def held : Loop → List Event
  | .idle => []
  | .sending _ e => [e]
  | .ended none => []
  | .ended (some e) => [e]

/-- The callback that the documentation promises for an event: the one registered for its name in its namespace
if the namespace is registered, otherwise the global one. -/
def registered (cfg : Config CB) (e : Event) : Option CB :=
  match e.ns with
  | none => cfg.global.callback e.name
  | some n =>
    match cfg.namespaces.get n with
    | some ns => ns.handler.callback e.name
    | none => cfg.global.callback e.name

/-- The events emitted on connection `c` by `o`, in order. -/
def emittedBy (s : State CB) (c : Nat) (o : Origin) : List Event :=
  ((s.out c).filter fun x => decide (x.origin = o)).map (·.event)

/-- The answer to the event `e` after its handler returned `res`: an End event with the bytes of the response,
or an Error event with code 500 and the formatted error. Both refer to `e`. -/
def IsAnswer (fmtDebug : Error → String) (e : Event) (res : Except Error Bytes) (a : Event) : Prop :=
  a.referenceId = some e.id ∧ a.ns = none ∧
  match res with
  | .ok b => a.eventType = .end ∧ a.name = "end" ∧ a.dataRaw = b
  | .error x => a.eventType = .error ∧ a.name = "error" ∧
      ErrorEventData.intoPayload { code := 500, message := fmtDebug x } = .ok a.dataRaw

end Bromine.Spec
