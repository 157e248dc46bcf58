import Verif.Model.LayerAny
import Verif.Spec.Ledger
import Verif.Spec.LayerFail
/-
The ledger of `Spec/Ledger.lean` for connections on which emits are dropped and also fail.
-/
namespace Bromine.Spec
open CryptIO Layers

/-- The ledger, and the numbers of the packages that were the last when a poll failed. -/
structure FLedger where
  led : Ledger := {}
  broken : List Nat := []
deriving DecidableEq

/-- What a poll of an emit tells: an error, or as without errors. -/
def heard {τ : Type} : Poll Unit × Stage × τ → Except IoErr Told
  | (.ready (.error e), _) => .error e
  | x => .ok (told x)

namespace FLedger

/-- An emit of `e` gets the connection. -/
def emit (L : FLedger) (e : Event) : FLedger := { L with led := L.led.emit e }

/-- The emit that has the connection is polled. If it fails, it is over, as after `Ok`: nothing is unfinished then. But the last package can be torn. -/
def poll (L : FLedger) : Except IoErr Told → FLedger
  | .ok t => { L with led := L.led.poll t }
  | .error _ => { led := L.led.poll .ok, broken := L.broken ++ [(L.led.poll .ok).sent.length - 1] }

/-- The emit that has the connection is dropped. -/
def drop (L : FLedger) : FLedger := { L with led := L.led.drop }

end FLedger

section
variable (A : Aead) (l : Layer) (ls : List Layer)

/-- From the state `s0` with the ledger `L0` the connection can get into the state `s` with the ledger `L`, so that meanwhile the emits of `em` have got the connection. -/
inductive Booked (s0 : AState (l :: ls).length) (L0 : FLedger) : AState (l :: ls).length → List Event → FLedger → Prop
  | start : Booked s0 L0 s0 [] L0
  | emit {s s' em L} (e : Event) : Booked s0 L0 s em L → anyStep A s (.emit e) = some s' → Booked s0 L0 s' (em ++ [e]) (L.emit e)
  | poll {s s' em L e st} (as : List IoAns) : Booked s0 L0 s em L → s.cur = some (e, st) → anyStep A s (.poll as) = some s' → Booked s0 L0 s' em (L.poll (heard (s.polled A st as)))
  | drop {s s' em L} : Booked s0 L0 s em L → anyStep A s .drop = some s' → Booked s0 L0 s' em L.drop

/-- Steps, one after the other. -/
def anySteps (s : AState (l :: ls).length) : List AnyOp → Option (AState (l :: ls).length)
  | [] => some s
  | o :: os => (anyStep A s o).bind fun s => anySteps s os

/-- The events whose emits get the connection. -/
def theEmits : List AnyOp → List Event
  | [] => []
  | .emit e :: os => e :: theEmits os
  | _ :: os => theEmits os

/-- `pkg` is the package number `i` (in packages of the other layers) that carries the frames of the events `g`. -/
def PackageOf (i : Nat) (g : List Event) (pkg : Bytes) : Prop := ∃ plain, Frames g plain ∧ Nested A (l :: ls) i plain pkg

/-- The same from the beginning. -/
abbrev BookedAll (s : AState (l :: ls).length) (em : List Event) (L : FLedger) : Prop := Booked A l ls (anyStart (l :: ls)) {} s em L

end
end Bromine.Spec
