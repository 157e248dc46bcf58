import Verif.Model.Timed
/-
What a user expects of timeouts.
-/
namespace Bromine.Spec
open Refine

/-- The rest of the process behaves: the connection and the channel do not panic, and `Timeout` is not the error of something else (of the connection, or of the payload's serialisation). -/
structure Behaves {P : Type} (a : Params P) (io : Env P) : Prop where
  sane : Sane io
  writing : ∀ e, io.writing e ≠ .ready (.err .timeout)
  payload : io.enc a.payload ≠ .err .timeout

/-- In this poll the event was completely written. -/
def Wrote {P : Type} (o : Obs P) : Prop := ∃ e, Effect.write e ∈ o.effects ∧ o.tick.io.writing e = .ready (.ok ())

/-- This poll has told that the time is up. -/
def TimedOut : Got → Prop
  | .reply (.err .timeout) => True
  | .item (some (.err .timeout)) => True
  | .opened (.err .timeout) => True
  | _ => False

/-- This poll has given the stream, or an item of it: the next poll starts waiting for the next item. -/
def Opens {P : Type} (o : Obs P) : Prop := o.got = .opened (.ok ()) ∨ ∃ e, o.got = .item (some (.ok e))

/-- `w` are the last polls of the history `h`, since the stream was opened or has given its last item. -/
def SinceLastItem {P : Type} (h w : List (Obs P)) : Prop := ∃ pre p, h = pre ++ p :: w ∧ Opens p

end Bromine.Spec
