import Verif.Model.Protocol
/-
Words for the specification of the protocols.
-/
namespace Bromine.Spec
open Bromine Bromine.Protocol Bromine.Handshake

variable {Addr : Type}

/-- The calls of a plan are made one after the other, until one does not succeed; that one decides the outcome. `Performs w h plan h' r`: from the calls `h` to the
calls `h'`, with the outcome `r`. -/
inductive Performs (w : World Addr) : List (Call Addr) → List (Call Addr) → List (Call Addr) → Outcome Unit → Prop where
  | done (h) : Performs w h [] h (.ok ())
  | next {h c cs h' r} : w h c = .ok () → Performs w (h ++ [c]) cs h' r → Performs w h (c :: cs) h' r
  | stop {h c cs} : w h c ≠ .ok () → Performs w h (c :: cs) (h ++ [c]) (w h c)

/-- The options of a protocol with the encrypted layers `ks` (innermost first) around a TCP or unix socket. -/
def layered (base : Options) (ks : List Keys) : Options := ks.foldl .encrypted base

/-- The kind of stream that belongs to options: a TCP stream for TCP options, a unix stream for those of a unix socket, in one encrypted stream for each layer. -/
def streamOf : Options → Stream
  | .tcp _ => .tcp
  | .unix => .unix
  | .encrypted inner _ => .encrypted (streamOf inner)

/-- The outcome is as expected: a value that satisfies `P`, or the failure `r`. -/
def Ends {α : Type} (P : α → Prop) (r : Outcome Unit) : Outcome α → Prop
  | .ok a => r = .ok () ∧ P a
  | .err e => r = .err e
  | .panic => r = .panic
  | .hang => r = .hang

/-- The calls for the sockets. -/
def ttlCall : Option UInt32 → List (Call Addr)
  | none => []
  | some t => [.setTtl t]

/-- The key exchanges in a world end as the code of the exchange says (Handshake.lean), for some transport and some peer: with `Ok` only if the exchange completes, and with
an error or a panic only if it fails with that error or panics. -/
structure RealExchanges (A : Aead) (D : DH) (w : World Addr) : Prop where
  server_ok : ∀ h n keys, w h (.serverExchange n keys) = .ok () →
    ∃ fresh ops s st, fresh.length = 32 ∧ serverInit.run (serverPoll A D keys fresh) ops = some s ∧ s.phase = .done st
  server_err : ∀ h n keys e, w h (.serverExchange n keys) = .err e →
    ∃ fresh ops s, fresh.length = 32 ∧ serverInit.run (serverPoll A D keys fresh) ops = some s ∧ s.phase = .failed e
  client_ok : ∀ h n keys, w h (.clientExchange n keys) = .ok () →
    ∃ ops s st, (clientInit D keys).run (clientPoll A D keys) ops = some s ∧ s.phase = .done st
  client_err : ∀ h n keys e, w h (.clientExchange n keys) = .err e →
    ∃ ops s, (clientInit D keys).run (clientPoll A D keys) ops = some s ∧ s.phase = .failed e
  server_panic : ∀ h n keys, w h (.serverExchange n keys) = .panic →
    ∃ fresh ops s, fresh.length = 32 ∧ serverInit.run (serverPoll A D keys fresh) ops = some s ∧ s.phase = .panicked
  client_panic : ∀ h n keys, w h (.clientExchange n keys) = .panic →
    ∃ ops s, (clientInit D keys).run (clientPoll A D keys) ops = some s ∧ s.phase = .panicked

/-- The calls of sockets do not panic, and fail with IO errors. -/
def SocketErrors (w : World Addr) : Prop :=
  ∀ h c, (∀ n k, c ≠ .serverExchange n k) → (∀ n k, c ≠ .clientExchange n k) → w h c = .ok () ∨ w h c = .hang ∨ ∃ e, w h c = .err (.io e)

end Bromine.Spec
