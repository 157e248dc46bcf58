import Verif.Model.Emit
import Verif.Spec.Payload
/-
Specification vocabulary for emitting: sequences of polls, the event a caller expects, the results a caller
expects.
-/
namespace Bromine.Spec

/-- What a sequence of polls looks like from outside: the results and all the effects, in order. -/
structure Observed (R : Type) where
  results : List R
  effects : List Effect

/-- Poll once per environment. -/
def polls {P S R : Type} (poll : Env P → S → R × S × List Effect) : List (Env P) → S → Observed R
  | [], _ => ⟨[], []⟩
  | env :: envs, s =>
    let (r, s, eff) := poll env s
    let o := polls poll envs s
    ⟨r :: o.results, eff ++ o.effects⟩

/-- The state after a sequence of polls. -/
def stateAfter {P S R : Type} (poll : Env P → S → R × S × List Effect) : List (Env P) → S → S
  | [], s => s
  | env :: envs, s => stateAfter poll envs (poll env s).2.1

/-- The event a caller expects from emitting on a context: on a context without reference an initiator, on
the context of a handled event a response to that event. -/
def emitEvent (ctx : Context) (ns : Option String) (name : String) (bytes : Bytes) (id : UInt64) : Event where
  header := { id := id
              eventType := (match ctx.refId with | none => .initiator | some _ => .response)
              refId := ctx.refId
              ns := ns
              name := name }
  data := bytes

/-- The results expected from polling an emit whose write behaves like `ws`: pending until the write is
done, then the id or the error once; polling further panics (like every completed `async` block). -/
def writeResults (id : UInt64) : List (Poll (Outcome Unit)) → List (Poll (Outcome UInt64))
  | [] => []
  | .pending :: ws => .pending :: writeResults id ws
  | .ready .hang :: ws => .pending :: writeResults id ws
  | .ready (.ok _) :: ws => .ready (.ok id) :: ws.map fun _ => .panic
  | .ready (.err x) :: ws => .ready (.err x) :: ws.map fun _ => .panic
  | .ready .panic :: ws => .panic :: ws.map fun _ => .panic
  | .panic :: ws => .panic :: ws.map fun _ => .panic

/-- The environment does nothing that a waiting request could notice: its event `e` is being written or has
been written, no reply, no timeout after `t`. -/
def Quiet {P : Type} (e : Event) (t : Nat) (env : Env P) : Prop :=
  env.channel = .pending ∧ env.timer t = false ∧ (env.writing e = .pending ∨ env.writing e = .ready (.ok ()))

/-- The items a reply stream is expected to give when its channel behaves like `cs` and nothing times out:
the received events up to and including the first End, then nothing. -/
def streamItems : List (Poll (Option Event)) → List (Poll (Option (Outcome Event)))
  | [] => []
  | .pending :: cs => .pending :: streamItems cs
  | .panic :: cs => .panic :: cs.map fun _ => .panic
  | .ready none :: cs => .ready none :: cs.map fun _ => .ready none
  | .ready (some e) :: cs =>
    .ready (some (.ok e)) :: (if e.eventType = .end then cs.map fun _ => .ready none else streamItems cs)

/-- The same sequence of polls, poll by poll. -/
def trace {P S R : Type} (poll : Env P → S → R × S × List Effect) : List (Env P) → S → List (R × List Effect)
  | [], _ => []
  | env :: envs, s => ((poll env s).1, (poll env s).2.2) :: trace poll envs (poll env s).2.1

/-- What the reply `ev` makes `await_reply` return. -/
inductive IsReplyResult (ev : Event) : Poll (Outcome Event) → Prop
  /-- a reply that is no Error event, as it is -/
  | ok (h : ev.eventType ≠ .error) : IsReplyResult ev (.ready (.ok ev))
  /-- an Error event, as an error with the code and message it carries -/
  | error (h : ev.eventType = .error) (d : ErrorEventData) (hd : ev.payload errorPayload = .ok d) :
      IsReplyResult ev (.ready (.err (.errorEvent d.code d.message)))
  /-- an Error event that carries something else -/
  | broken (h : ev.eventType = .error) (x : Error) (hx : ev.payload errorPayload = .err x) : IsReplyResult ev (.ready (.err x))

/-- One poll of an `await_reply` for the event `e` with timeout `t`: everything it can return and do (after the registration of its listener), and when. -/
inductive RequestStep {P : Type} (e : Event) (t : Nat) (env : Env P) : Poll (Outcome Event) → List Effect → Prop
  /-- the event is not written yet -/
  | writing (h : env.writing e = .pending ∨ env.writing e = .ready .hang) : RequestStep e t env .pending [.write e]
  /-- it is written (now or before); no reply has come, and the time is not up -/
  | waiting (hc : env.channel = .pending) (ht : env.timer t = false) (eff : List Effect) (h : eff = [] ∨ eff = [.write e]) : RequestStep e t env .pending eff
  /-- writing failed: nothing is unregistered -/
  | failed (x : Error) (h : env.writing e = .ready (.err x)) : RequestStep e t env (.ready (.err x)) [.write e]
  /-- the time is up: nothing is unregistered -/
  | timeout (ht : env.timer t = true) (eff : List Effect) (h : eff = [] ∨ eff = [.write e]) : RequestStep e t env (.ready (.err .timeout)) eff
  /-- the channel was closed -/
  | closed (hc : env.channel = .ready none) (eff : List Effect) (h : eff = [] ∨ eff = [.write e]) : RequestStep e t env (.ready (.err .send)) eff
  /-- a reply: the listener is removed -/
  | reply (ev : Event) (hc : env.channel = .ready (some ev)) (r : Poll (Outcome Event)) (hr : IsReplyResult ev r) (eff : List Effect)
      (h : eff = [] ∨ eff = [.write e]) : RequestStep e t env r (eff ++ [.unregister e.id])
  /-- polled again after it has returned a result, or the environment panicked: no listener is removed -/
  | panic (eff : List Effect) (h : eff = [] ∨ eff = [.write e]) : RequestStep e t env .panic eff

/-- One poll of a `stream_replies` for the event `e` with timeout `t` (after the registration of its listener). -/
inductive StreamRequestStep {P : Type} (e : Event) (t : Nat) (env : Env P) : Poll (Outcome ResponseStream) → List Effect → Prop
  | writing (h : env.writing e = .pending ∨ env.writing e = .ready .hang) : StreamRequestStep e t env .pending [.write e]
  /-- the event is written: a stream for its id, with this timeout -/
  | started (h : env.writing e = .ready (.ok ())) : StreamRequestStep e t env (.ready (.ok (ResponseStream.new e.id t))) [.write e]
  | failed (x : Error) (h : env.writing e = .ready (.err x)) : StreamRequestStep e t env (.ready (.err x)) [.write e]
  | panic (eff : List Effect) (h : eff = [] ∨ eff = [.write e]) : StreamRequestStep e t env .panic eff

/-- What a reply stream for `id` is expected to do when its channel behaves like `cs` and nothing times out: it removes its listener once, when it gives
the End event or finds the channel closed. -/
def streamEffects (id : UInt64) : List (Poll (Option Event)) → List Effect
  | [] => []
  | .pending :: cs => streamEffects id cs
  | .panic :: _ => []
  | .ready none :: _ => [.unregister id]
  | .ready (some e) :: cs => if e.eventType = .end then [.unregister id] else streamEffects id cs

end Bromine.Spec
