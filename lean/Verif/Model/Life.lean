import Verif.Model.Builder
/-
Who keeps a connection open: the reference counts of the write half (`SendStream`, stream_emitter/mod.rs:31) and of the cell with the stop sender
(`stop_sender`, context.rs:43), which every clone of a context shares, the receive loop, which owns the read half (ipc/mod.rs:18-23), and the task that aborts
it (client.rs:73-76).

One step is one action of one task. Values are dropped where the code drops them. What the connection carries is not modelled here (see Model/Endpoint.lean).
-/
namespace Bromine.Life

/-- A value of the program that holds references to a connection. The receive loop is not among them. -/
inductive Hold where
  /-- a `Context`, of the user, of a handler task (ipc/mod.rs:63-67), or of a `ResponseStream` (emit_metadata_with_response_stream.rs:27-33) -/
  | ctx
  /-- an `EmitMetadata` that has not been polled, emit_metadata.rs:37-49: it has a context and a write half -/
  | emitNew
  /-- an `EmitMetadata` whose event has been built (which drops its context, event_metadata.rs:34) and is being written -/
  | emitBuilt
  /-- an `await_reply` or `stream_replies` that is being written: its block has a clone of the context (emit_metadata_with_response.rs:39-42), and the emit future -/
  | reqWriting
  /-- an `await_reply` that waits, emit_metadata_with_response.rs:59-66: the emit future is gone -/
  | reqWaiting
deriving DecidableEq, Repr

/-- How many references to the write half it has (a `Context` has one in its `emitter`, context.rs:38). -/
def Hold.streams : Hold → Nat
  | .ctx => 1
  | .emitNew => 2
  | .emitBuilt => 1
  | .reqWriting => 2
  | .reqWaiting => 1

/-- How many references to the cell of the stop sender it has. -/
def Hold.stops : Hold → Nat
  | .ctx => 1
  | .emitNew => 1
  | .emitBuilt => 0
  | .reqWriting => 1
  | .reqWaiting => 1

/-- The channel to the task of client.rs:73-76. -/
inductive Chan where
  /-- nothing has been sent, the sender exists -/
  | open
  /-- `stop` has sent -/
  | message
  /-- the sender was dropped without sending -/
  | closed
deriving DecidableEq, Repr

/-- One connection. -/
structure State where
  /-- `Arc::strong_count` of the write half -/
  streamRc : Nat
  /-- `Arc::strong_count` of the cell -/
  stopRc : Nat
  /-- the write half exists; when it is dropped the peer sees the end of the stream -/
  writeHalf : Bool := true
  /-- the receive loop runs and owns the read half -/
  loop : Bool := true
  /-- the cell holds the sender -/
  cell : Bool
  chan : Chan := .open
  /-- the task that waits for the channel exists; it owns the receiver -/
  aborter : Bool
  /-- results of `send` in `stop`, context.rs:139 (history variable) -/
  sends : List Bool := []
  held : List (Nat × Hold)
deriving DecidableEq, Repr

/-- A client's connection, client.rs:42-79, when `connect` has returned: the user has the context, the receive loop a clone of it; the local `emitter` (line 45) has been
dropped. -/
def client : State := { streamRc := 2, stopRc := 2, cell := true, aborter := true, held := [(0, .ctx)] }

/-- A connection of a server, server.rs:53-76: the only context is that of the receive loop, without stop sender. -/
def server : State := { streamRc := 1, stopRc := 1, cell := false, aborter := false, held := [] }

/-- `n` references to the write half are dropped. -/
def dropStreams (s : State) (n : Nat) : State :=
  if n = 0 then s
  else { s with streamRc := s.streamRc - n, writeHalf := if s.streamRc - n = 0 then false else s.writeHalf }

/-- `n` references to the cell are dropped; with the last one the sender in it, if it is still there. -/
def dropStops (s : State) (n : Nat) : State :=
  if n = 0 then s
  else if s.stopRc - n = 0 then
    { s with stopRc := s.stopRc - n, cell := false, chan := if s.cell then .closed else s.chan }
  else { s with stopRc := s.stopRc - n }

/-- A value is dropped. -/
def dropHold (s : State) (x : Hold) : State := dropStops (dropStreams s x.streams) x.stops

/-- A value is made that has `streams` and `stops` more references. -/
def addRefs (s : State) (x : Hold) : State := { s with streamRc := s.streamRc + x.streams, stopRc := s.stopRc + x.stops }

def get (l : List (Nat × Hold)) (h : Nat) : Option Hold := (l.find? fun p => p.1 == h).map Prod.snd
def remove (l : List (Nat × Hold)) (h : Nat) : List (Nat × Hold) := l.eraseP fun p => p.1 == h

inductive Op where
  /-- a context is cloned, context.rs:35 -/
  | clone (h new : Nat)
  /-- `emit` etc. on a context, context.rs:77-117 and stream_emitter/mod.rs:52-69: the future gets a clone of the context and one of the write half -/
  | emit (h new : Nat)
  /-- an emit future is polled for the first time, emit_metadata.rs:79-98 -/
  | start (h : Nat)
  /-- `await_reply` or `stream_replies` on it is polled for the first time: line 39-42 clones the context, `get_event` drops the one in the metadata -/
  | startRequest (h : Nat)
  /-- its event is written: the emit future is dropped (emit_metadata_with_response.rs:57) -/
  | written (h : Nat)
  /-- a `stream_replies` has been written: the context moves into the `ResponseStream` (emit_metadata_with_response_stream.rs:90) -/
  | writtenStream (h : Nat)
  /-- a value is dropped: by its owner, because its future is over, or because its handler task is over -/
  | drop (h : Nat)
  /-- `Context::stop(self)`, context.rs:136-143; at its end the context is dropped -/
  | stop (h : Nat)
  /-- the task of client.rs:73-76 gets the message, or sees that the sender is gone; `handle.abort()` drops the receive loop with its context and the read half -/
  | abort
  /-- the receive loop takes an event and spawns a handler task with a clone of its context, ipc/mod.rs:38, 52, 55 -/
  | spawn (new : Nat)
  /-- the receive loop ends: the stream ended, or the input was malformed (ipc/mod.rs:24, 59) -/
  | readEnd
deriving DecidableEq, Repr

/-- The receive loop is gone: its context and the read half are dropped. -/
def endLoop (s : State) : State := dropHold { s with loop := false } .ctx

/-- `sender.send(())` in `stop`, context.rs:138-140: the sender is taken out of the cell; sending succeeds if the receiver exists. -/
def sendStop (s : State) : State :=
  if s.cell then { s with cell := false, chan := .message, sends := s.sends ++ [s.aborter] } else s

/-- One step; `none`: not possible now. -/
def step (s : State) : Op → Option State
  | .clone h new =>
    match get s.held h, get s.held new with
    | some .ctx, none => some { addRefs s .ctx with held := s.held ++ [(new, .ctx)] }
    | _, _ => none
  | .emit h new =>
    match get s.held h, get s.held new with
    | some .ctx, none => some { addRefs s .emitNew with held := s.held ++ [(new, .emitNew)] }
    | _, _ => none
  | .start h =>
    match get s.held h with
    | some .emitNew => some (dropHold { s with held := remove s.held h ++ [(h, .emitBuilt)] } .ctx)
    | _ => none
  | .startRequest h =>
    match get s.held h with
    | some .emitNew => some (dropHold (addRefs { s with held := remove s.held h ++ [(h, .reqWriting)] } .ctx) .ctx)
    | _ => none
  | .written h =>
    match get s.held h with
    | some .reqWriting => some (dropStreams { s with held := remove s.held h ++ [(h, .reqWaiting)] } 1)
    | _ => none
  | .writtenStream h =>
    match get s.held h with
    | some .reqWriting => some (dropStreams { s with held := remove s.held h ++ [(h, .ctx)] } 1)
    | _ => none
  | .drop h =>
    match get s.held h with
    | some x => some (dropHold { s with held := remove s.held h } x)
    | none => none
  | .stop h =>
    match get s.held h with
    | some .ctx => some (dropHold { sendStop s with held := remove s.held h } .ctx)
    | _ => none
  | .abort =>
    if s.aborter && decide (s.chan ≠ .open) then
      let s := { s with aborter := false }
      some (if s.loop then endLoop s else s)
    else none
  | .spawn new =>
    match s.loop, get s.held new with
    | true, none => some { addRefs s .ctx with held := s.held ++ [(new, .ctx)] }
    | _, _ => none
  | .readEnd => if s.loop then some (endLoop s) else none

/-- Run a sequence of steps. -/
def run : State → List Op → Option State
  | s, [] => some s
  | s, op :: ops => (step s op).bind fun s => run s ops

/-! ### A pool -/

/-- The loop of `build_pooled_client`, builder.rs:253-271, with the connections it makes: `made` so far; `net i`: the result of connecting the `i`-th time. The result: all connections
that there are when it returns. If an attempt fails, line 267 returns the error, and `contexts` is dropped; while an attempt is pending, the future keeps them. -/
def connectPool (net : Nat → Outcome Unit) : Nat → Nat → List State → List State × Outcome Unit
  | 0, _, made => (made, .ok ())
  | n + 1, i, made =>
    match net i with
    | .ok _ => connectPool net n (i + 1) (made ++ [client])
    | .hang => (made, .hang)
    | r => (made.map fun s => (step s (.drop 0)).getD s, r)

end Bromine.Life
