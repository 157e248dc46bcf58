import Verif.Model.Assembly
/-
The data of a process (`Context::data`, context.rs:41; `Arc<RwLock<SendSyncTypeMap>>`, builder.rs:218 and 248, server.rs:43) and the guards of its lock. `Model/Assembly.lean`
has each access as one step; here a guard exists as long as the task that has asked for it keeps it, also over awaits.

The lock is tokio's `RwLock`: first come, first served. (A `read` takes one permit of a fair semaphore and a `write` takes all; released permits go to
the longest waiting; who asks while others wait has to wait.)
-/
namespace Bromine.DataLock
open Bromine Assembly

/-- `data.read()` or `data.write()`. -/
inductive Mode where
  | read
  | write
deriving DecidableEq, Repr

/-- A request for a guard, and later the guard. `task`: who has asked. -/
structure Guard where
  id : Nat
  task : Nat
  mode : Mode
deriving DecidableEq, Repr

/-- The lock and what it protects (`TypeMap`; here a map from keys to values). `held`: the guards that exist. `queue`: the futures of `read()` and `write()` that wait, the longest waiting first. `seen`: what has been read, by which
guard, under which key. `next`: the number of requests so far; the ids are numbered. -/
structure State (K V : Type) where
  data : TypeMap K V
  held : List Guard := []
  queue : List Guard := []
  seen : List (Nat × K × Option V) := []
  next : Nat := 0

/-- A guard can be given: nobody has one, or all are for reading. -/
def free (held : List Guard) (m : Mode) : Bool :=
  match m with
  | .read => held.all fun g => g.mode == .read
  | .write => held.isEmpty

/-- The permits that are free go to those who wait, in order, as far as they suffice. -/
def grant : List Guard → List Guard → List Guard × List Guard
  | held, [] => (held, [])
  | held, g :: queue => if free held g.mode then grant (held ++ [g]) queue else (held, g :: queue)

inductive Op (K V : Type) where
  /-- the future of `data.read()` or `data.write()` is polled for the first time -/
  | ask (task : Nat) (m : Mode)
  /-- a guard is dropped, or the future of a request that waits -/
  | drop (id : Nat)
  /-- `guard.get::<K>()` -/
  | get (id : Nat) (k : K)
  /-- `guard.insert::<K>(v)` or `guard.remove::<K>()` -/
  | put (id : Nat) (k : K) (v : Option V)

variable {K V : Type} [DecidableEq K]

/-- One step. -/
def step (s : State K V) : Op K V → Option (State K V)
  | .ask t m =>
    let g : Guard := { id := s.next, task := t, mode := m }
    if s.queue.isEmpty && free s.held m then some { s with held := s.held ++ [g], next := s.next + 1 }
    else some { s with queue := s.queue ++ [g], next := s.next + 1 }
  | .drop i =>
    if (s.held ++ s.queue).any fun g => g.id == i then
      let (held, queue) := grant (s.held.filter fun g => g.id != i) (s.queue.filter fun g => g.id != i)
      some { s with held := held, queue := queue }
    else none
  | .get i k =>
    if s.held.any fun g => g.id == i then some { s with seen := s.seen ++ [(i, k, s.data k)] } else none
  | .put i k v =>
    if s.held.any fun g => g.id == i && g.mode == .write then
      some { s with data := match v with | some v => s.data.insert k v | none => s.data.remove k }
    else none

/-- Run a sequence of steps. -/
def run : State K V → List (Op K V) → Option (State K V)
  | s, [] => some s
  | s, op :: ops => (step s op).bind fun s => run s ops

end Bromine.DataLock
