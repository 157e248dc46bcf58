import Verif.Model.SetupFail
import Verif.Spec.LayerPeer
/-
What C91 says of three set-ups at once: over a transport that fails after certain answers, over one that is closed there, and over one that is silent from there on.
-/
namespace Bromine.Spec
open Bromine Bromine.Layers

/-- What three connections read: the same events. If the one over the silent transport waits for more, then the one over the closed transport ends with `UnexpectedEof` and the one over the failing transport with the error `e`; else all
three end in the same way. -/
def ReadAlike (e : IoErr) (waits ends fails : List Event × Outcome Unit) : Prop :=
  fails.1 = waits.1 ∧ fails.1 = ends.1 ∧
    ((waits.2 = .hang ∧ ends.2 = .err (.io .unexpectedEof) ∧ fails.2 = .err (.io e)) ∨ (fails.2 = waits.2 ∧ fails.2 = ends.2))

/-- Three set-ups after the same polls. Either all three are pending, or they have a connection with the same half to write and with halves to read that read alike, or they have failed with the same error, or have panicked; or the first
waits for more, the second has failed with `UnexpectedEof` and the third with the error `e`. -/
inductive SetUpAlike {σ σ' τ ρ ρ' : Type} (e : IoErr) (alike : ρ → ρ → ρ' → Prop) : (waits ends : Setup σ τ ρ) → (fails : Setup σ' τ ρ') → Prop
  | pending (b : Bool) (s0 s1 : σ) (s2 : σ') : SetUpAlike e alike (.pending b s0) (.pending b s1) (.pending b s2)
  | done (w : τ) (r0 r1 : ρ) (r2 : ρ') : alike r0 r1 r2 → SetUpAlike e alike (.done w r0) (.done w r1) (.done w r2)
  | failed (x : Error) (k : Socket) : SetUpAlike e alike (.failed x k) (.failed x k) (.failed x k)
  | panicked (k : Socket) : SetUpAlike e alike (.panicked k) (.panicked k) (.panicked k)
  | ended (s0 : σ) (k : Socket) : SetUpAlike e alike (.pending true s0) (.failed (.io .unexpectedEof) k) (.failed (.io e) k)

end Bromine.Spec
