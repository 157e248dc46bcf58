import Verif.Model.CryptIO
import Verif.Model.Wire
/-
Concurrent emitters on one encrypted connection: as Model/Wire.lean, but the `SendStream` is an `EncryptedWriteStream`
(ipc/client.rs and ipc/server.rs split an `EncryptedStream` into its halves, protocol_impl.rs:51-53), and each
emit is run poll by poll.
-/
namespace Bromine.CryptWire
open Bromine CryptIO

/-- Where an emit is in emit_metadata.rs:89-98. -/
inductive Stage where
  /-- waiting for the lock, line 92 -/
  | waiting (e : Event)
  /-- holding the lock, `write_all` (line 93) has not returned -/
  | writing (e : Event)
  /-- holding the lock, `flush` (line 94) has not returned -/
  | flushing (e : Event)
  /-- returned `Ok`, line 97 -/
  | done (e : Event)
  /-- returned an i/o error from line 93 or 94, panicked, or was dropped; the lock guard is gone -/
  | gone (e : Event)
deriving DecidableEq, Repr

/-- The connection. `log` and `broken` are history variables (never read by `step`): the tasks that got the lock, with
their events, in that order; whether an emit that held the lock has ended in another way than `Ok`. -/
structure State where
  tasks : Nat → Option Stage := fun _ => none
  lock : Option Nat := none
  ws : WriteStream
  wire : Bytes := []
  log : List (Nat × Event) := []
  broken : Bool := false

inductive Op where
  /-- an emit future of a new task is polled for the first time -/
  | start (t : Nat) (e : Event)
  /-- `stream.lock().await` succeeds, line 92 -/
  | lock (t : Nat)
  /-- the emit future is polled while it holds the lock; the transport has these answers for this poll -/
  | poll (t : Nat) (as : List IoAns)
  /-- the emit future is dropped -/
  | drop (t : Nat)

/-- A poll of `flush`, line 94, with what the write half and the wire are now. -/
def pollFlushStage (A : Aead) (s : State) (t : Nat) (e : Event) (ws : WriteStream) (wire : Bytes) (as : List IoAns) : State :=
  let r := ws.pollFlush A as
  match r.poll with
  | .pending _ => { s with tasks := Wire.set s.tasks t (some (.flushing e)), ws := r.ws, wire := wire ++ r.wire }
  | .ready (.ok _) => { s with tasks := Wire.set s.tasks t (some (.done e)), lock := none, ws := r.ws, wire := wire ++ r.wire }
  | _ => { s with tasks := Wire.set s.tasks t (some (.gone e)), lock := none, ws := r.ws, wire := wire ++ r.wire, broken := true }

/-- A poll of `write_all`, line 93. tokio's `write_all` calls `poll_write` with the whole frame; the encrypted write half
never takes only a part of it (io_impl.rs:107, 122, 132), so `write_all` ends with the first `Ready(Ok)`. -/
def pollWriteStage (A : Aead) (s : State) (t : Nat) (e : Event) (as : List IoAns) : State :=
  let r := s.ws.pollWrite A (Wire.frame e) as
  match r.poll with
  | .pending _ => { s with tasks := Wire.set s.tasks t (some (.writing e)), ws := r.ws, wire := s.wire ++ r.wire }
  | .ready (.ok _) => pollFlushStage A s t e r.ws (s.wire ++ r.wire) r.rest
  | _ => { s with tasks := Wire.set s.tasks t (some (.gone e)), lock := none, ws := r.ws, wire := s.wire ++ r.wire, broken := true }

/-- One step; `none`: the step is not possible now. -/
def step (A : Aead) (s : State) : Op → Option State
  | .start t e =>
    match s.tasks t with
    | none => some { s with tasks := Wire.set s.tasks t (some (.waiting e)) }
    | some _ => none
  | .lock t =>
    match s.tasks t, s.lock with
    | some (.waiting e), none => some { s with tasks := Wire.set s.tasks t (some (.writing e)), lock := some t, log := s.log ++ [(t, e)] }
    | _, _ => none
  | .poll t as =>
    match s.tasks t with
    | some (.writing e) => some (pollWriteStage A s t e as)
    | some (.flushing e) => some (pollFlushStage A s t e s.ws s.wire as)
    | _ => none
  | .drop t =>
    match s.tasks t with
    | some (.waiting e) => some { s with tasks := Wire.set s.tasks t (some (.gone e)) }
    | some (.writing e) => some { s with tasks := Wire.set s.tasks t (some (.gone e)), lock := none, broken := true }
    | some (.flushing e) => some { s with tasks := Wire.set s.tasks t (some (.gone e)), lock := none, broken := true }
    | _ => none

/-- Run a sequence of steps. -/
def run (A : Aead) : State → List Op → Option State
  | s, [] => some s
  | s, op :: ops => (step A s op).bind fun s => run A s ops

/-- The write half of a new connection with session key `key` (after `update_key`, mod.rs:79-90). -/
def init (key : Bytes) (log : List Encryption := []) : State := { ws := { enc := { key := key, log := log } } }

end Bromine.CryptWire
