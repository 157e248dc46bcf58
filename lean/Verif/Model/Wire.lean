import Verif.Model.Event
/-
Concurrent emitters on one connection: the inner future of `EmitMetadata` (emit_metadata.rs:89-98) run by any
number of tasks on the shared `SendStream = Arc<Mutex<dyn AsyncWrite>>` (stream_emitter/mod.rs:31,45-49).

The write half is a plain transport (tcp.rs, unix_socket.rs): bytes accepted by `poll_write` are on the wire in
the order of acceptance. `tokio::sync::Mutex` is modelled as a lock that any waiting task may get
next (tokio's FIFO queue is one of the possible orders).
-/
namespace Bromine.Wire

/-- The bytes `Event::into_bytes` produces (it never fails), emit_metadata.rs:91. -/
def frame (e : Event) : Bytes :=
  match e.intoBytes with
  | .ok b => b
  | _ => []

/-- Where an emit is in emit_metadata.rs:89-98; `n` is the number of bytes it has written. -/
inductive Stage where
  /-- waiting for the lock, line 92 -/
  | waiting (e : Event)
  /-- holding the lock, in `write_all` or `flush`, lines 93-94 -/
  | writing (e : Event) (n : Nat)
  /-- returned `Ok`, line 97 -/
  | done (e : Event)
  /-- returned an i/o error from line 93 or 94, or was dropped; the lock guard is gone -/
  | gone (e : Event) (n : Nat)
deriving DecidableEq, Repr

/-- The connection: all tasks, the holder of the lock, the bytes on the wire. `log` is a history variable
(never read by `step`): the tasks that got the lock so far, with their events, in that order. -/
structure State where
  tasks : Nat → Option Stage := fun _ => none
  lock : Option Nat := none
  wire : Bytes := []
  log : List (Nat × Event) := []

inductive Op where
  /-- an emit future of a new task is polled for the first time -/
  | start (t : Nat) (e : Event)
  /-- `stream.lock().await` succeeds, line 92 -/
  | lock (t : Nat)
  /-- a `poll_write` inside `write_all` accepts `n + 1` bytes, line 93 -/
  | write (t : Nat) (n : Nat)
  /-- `flush` succeeds and the future returns, lines 94-97 -/
  | flush (t : Nat)
  /-- the write or flush reports an error (including `WriteZero`), or the future is dropped -/
  | abort (t : Nat)

def set {α : Type} (f : Nat → α) (t : Nat) (x : α) : Nat → α := fun u => if u = t then x else f u

/-- One step; `none`: the step is not possible now. -/
def step (s : State) : Op → Option State
  | .start t e =>
    match s.tasks t with
    | none => some { s with tasks := set s.tasks t (some (.waiting e)) }
    | some _ => none
  | .lock t =>
    match s.tasks t, s.lock with
    | some (.waiting e), none =>
      some { s with tasks := set s.tasks t (some (.writing e 0)), lock := some t, log := s.log ++ [(t, e)] }
    | _, _ => none
  | .write t n =>
    match s.tasks t with
    | some (.writing e k) =>
      if k + n + 1 ≤ (frame e).length then
        some { s with tasks := set s.tasks t (some (.writing e (k + n + 1)))
                      wire := s.wire ++ ((frame e).drop k).take (n + 1) }
      else none
    | _ => none
  | .flush t =>
    match s.tasks t with
    | some (.writing e k) =>
      if k = (frame e).length then
        some { s with tasks := set s.tasks t (some (.done e)), lock := none }
      else none
    | _ => none
  | .abort t =>
    match s.tasks t with
    | some (.waiting e) => some { s with tasks := set s.tasks t (some (.gone e 0)) }
    | some (.writing e k) => some { s with tasks := set s.tasks t (some (.gone e k)), lock := none }
    | _ => none

/-- Run a sequence of steps. -/
def run : State → List Op → Option State
  | s, [] => some s
  | s, op :: ops => (step s op).bind fun s => run s ops

end Bromine.Wire
