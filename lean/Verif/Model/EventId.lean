import Verif.Model.Outcome
/-
`generate_event_id`, `src/events/mod.rs:14-23`, and threads calling it concurrently.
-/
namespace Bromine

/-- The clock reading: `SystemTime::now().duration_since(UNIX_EPOCH)` as seconds and milliseconds of the
second (`subsec_millis` < 1000); `none` if the clock is set before 1970. -/
structure Now where
  secs : UInt64
  millis : UInt64
deriving DecidableEq, Repr

/-- The id computed in events/mod.rs:20-22 from a clock reading and the counter value. -/
def eventId (now : Now) (counter : UInt64) : UInt64 :=
  ((now.secs % 65535) <<< 48) ||| (now.millis <<< 32) ||| counter

namespace IdGen

/-- The process: the shared counter, and for every thread the clock reading it has taken (line 18) but not
yet used. `out` are the ids handed out, with their thread, in the order of the `fetch_add`s (line 22); `used` (a history variable) are the clock readings they
were made with. -/
structure State where
  counter : UInt64 := 0
  pending : Nat → Option Now := fun _ => none
  out : List (Nat × UInt64) := []
  used : List Now := []
  panics : Nat := 0

/-- Thread `t` reads the clock (`none`: before 1970, `unwrap` panics, line 18), or performs the
`fetch_add` (SeqCst, wrapping) and returns. -/
inductive Op where
  | clock (t : Nat) (now : Option Now)
  | fetch (t : Nat)

def step (s : State) : Op → State
  | .clock t (some now) => { s with pending := fun u => if u = t then some now else s.pending u }
  | .clock _ none => { s with panics := s.panics + 1 }
  | .fetch t =>
    match s.pending t with
    | none => s
    | some now =>
      { s with counter := s.counter + 1
               pending := fun u => if u = t then none else s.pending u
               out := s.out ++ [(t, eventId now s.counter)]
               used := s.used ++ [now] }

def run (s : State) (ops : List Op) : State := ops.foldl step s

end IdGen
end Bromine
