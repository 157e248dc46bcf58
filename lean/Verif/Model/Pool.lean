/-
`PoolGuard` and `PooledContext` (src/ipc/context.rs:162-275), used by any number of threads: every access to a counter
(`fetch_add`, `fetch_sub`, `load`) is a step of its own. `usize` has 64 bits.

A guard is live from the `fetch_add` in its `clone` (context.rs:209-216) to the `fetch_sub` in its `drop`
(context.rs:223-227). Which context a guard refers to is its index in the pool; what the context does is not part of this
model.
-/
namespace Bromine.Pool

/-- What is done with a pool handle. -/
inductive Phase where
  /-- being built by `clone` (the derived `Clone` of context.rs:162, so `Vec::clone`) of pool handle `src` -/
  | cloning (src : Nat)
  | ready
  /-- being dropped: the guards of a `Vec` are dropped in order -/
  | dropping
deriving DecidableEq, Repr

/-- A `PooledContext`: of the guards of its `Vec` (context.rs:164) those with index `lo ≤ i < hi` are live. -/
structure Handle where
  phase : Phase
  lo : Nat
  hi : Nat
deriving DecidableEq, Repr

/-- A call of `PooledContext::acquire` (context.rs:266-274) on handle `pool`, inside `min_by_key`: `next` is the next
index, `best` the element kept so far with its key. `seen` is a history variable: the counts loaded so far. -/
structure Acquire where
  pool : Nat
  next : Nat
  best : Option (Nat × UInt64)
  seen : List UInt64
deriving DecidableEq, Repr

/-- `guards` are the live guards outside of pool handles, each given by the index of its context. `acquired` is a
history variable: the indices chosen by `acquire` so far. -/
structure State where
  count : Nat → UInt64
  handles : List Handle
  guards : List Nat
  acquires : List (Option Acquire)
  acquired : List Nat

/-- `PooledContext::new` with `n` contexts, context.rs:258-262 and 232-237. -/
def init (n : Nat) : State :=
  { count := fun _ => 0, handles := [{ phase := .ready, lo := 0, hi := n }], guards := [], acquires := [], acquired := [] }

inductive Op where
  /-- a call of `acquire` on pool handle `p` starts -/
  | start (p : Nat)
  /-- acquire `a` loads the next counter -/
  | load (a : Nat)
  /-- acquire `a` clones the guard it has found, and returns -/
  | take (a : Nat)
  /-- guard number `k` is cloned -/
  | clone (k : Nat)
  /-- guard number `k` is dropped -/
  | drop (k : Nat)
  /-- a clone of pool handle `p` begins -/
  | cloneStart (p : Nat)
  /-- the next guard is cloned for handle `p`, or the clone is complete -/
  | cloneNext (p : Nat)
  | dropStart (p : Nat)
  | dropNext (p : Nat)
deriving DecidableEq, Repr

/-- The counter of context `i` changed to `v`. -/
def setCount (s : State) (i : Nat) (v : UInt64) : Nat → UInt64 := fun j => if j = i then v else s.count j

/-- Handle `p` is borrowed by a call of `acquire` or `clone`; it can then not be dropped. -/
def borrowed (s : State) (p : Nat) : Bool :=
  s.acquires.any (fun a => match a with | some a => decide (a.pool = p) | none => false) ||
  s.handles.any fun h => decide (h.phase = .cloning p)

/-- `min_by_key` keeps the earlier of two equal elements (`Iterator::min_by_key`: "if several elements are equally
minimum, the first element is returned"). -/
def better (best : Option (Nat × UInt64)) (i : Nat) (key : UInt64) : Option (Nat × UInt64) :=
  match best with
  | none => some (i, key)
  | some (j, k) => if key < k then some (i, key) else some (j, k)

/-- One step of a pool with `n` contexts; `none`: not possible now. -/
def step (n : Nat) (s : State) : Op → Option State
  | .start p =>
    match s.handles[p]? with
    | some h =>
      if h.phase = .ready then some { s with acquires := s.acquires ++ [some { pool := p, next := 0, best := none, seen := [] }] } else none
    | none => none
  | .load a =>
    match s.acquires[a]? with
    | some (some q) =>
      if q.next < n then
        some { s with acquires := s.acquires.set a (some { q with next := q.next + 1, best := better q.best q.next (s.count q.next),
                                                                  seen := q.seen ++ [s.count q.next] }) }
      else none
    | _ => none
  | .take a =>
    match s.acquires[a]? with
    | some (some q) =>
      if q.next = n then
        match q.best with
        | some (i, _) =>
          some { s with acquires := s.acquires.set a none, count := setCount s i (s.count i + 1), guards := s.guards ++ [i],
                        acquired := s.acquired ++ [i] }
        | none => none
      else none
    | _ => none
  | .clone k =>
    match s.guards[k]? with
    | some i => some { s with count := setCount s i (s.count i + 1), guards := s.guards ++ [i] }
    | none => none
  | .drop k =>
    match s.guards[k]? with
    | some i => some { s with count := setCount s i (s.count i - 1), guards := s.guards.eraseIdx k }
    | none => none
  | .cloneStart p =>
    match s.handles[p]? with
    | some h =>
      if h.phase = .ready then some { s with handles := s.handles ++ [{ phase := .cloning p, lo := 0, hi := 0 }] } else none
    | none => none
  | .cloneNext p =>
    match s.handles[p]? with
    | some h =>
      match h.phase with
      | .cloning src =>
        if h.hi < n then
          some { s with count := setCount s h.hi (s.count h.hi + 1)
                        handles := s.handles.set p { phase := .cloning src, lo := 0, hi := h.hi + 1 } }
        else some { s with handles := s.handles.set p { phase := .ready, lo := 0, hi := n } }
      | _ => none
    | none => none
  | .dropStart p =>
    match s.handles[p]? with
    | some h =>
      if h.phase = .ready ∧ borrowed s p = false then
        some { s with handles := s.handles.set p { h with phase := .dropping } }
      else none
    | none => none
  | .dropNext p =>
    match s.handles[p]? with
    | some h =>
      if h.phase = .dropping ∧ h.lo < h.hi then
        some { s with count := setCount s h.lo (s.count h.lo - 1), handles := s.handles.set p { h with lo := h.lo + 1 } }
      else none
    | none => none

/-- Run a sequence of steps. -/
def run (n : Nat) : State → List Op → Option State
  | s, [] => some s
  | s, op :: ops => (step n s op).bind fun s => run n s ops

/-- The states a pool of `n` contexts can get into. -/
def Reachable (n : Nat) (s : State) : Prop := ∃ ops, run n (init n) ops = some s

/-- `acquire` panics (`unwrap` on `None`, context.rs:272): all counters are loaded and nothing was found. -/
def acquirePanics (n : Nat) (s : State) (a : Nat) : Prop :=
  ∃ q, s.acquires[a]? = some (some q) ∧ q.next = n ∧ q.best = none

/-- A whole call of `acquire` on handle `p`, without interruption. -/
def acquire (n : Nat) (s : State) (p : Nat) : Option State :=
  let a := s.acquires.length
  run n s (.start p :: List.replicate n (.load a) ++ [.take a])

end Bromine.Pool
