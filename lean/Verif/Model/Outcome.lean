/-
Results of Rust computations: `Result<T, Error>`, panics, and futures that are never woken again.
-/
namespace Bromine

/-- Byte strings (`Bytes`, `Vec<u8>`, `&[u8]`). -/
abbrev Bytes := List UInt8

/-- The `std::io::Error` kinds that the modelled code can produce or forward.
`other` stands for every error of the operating system (an opaque kind). -/
inductive IoErr where
  | unexpectedEof
  | writeZero
  | invalidData
  | other
deriving DecidableEq, Repr

/-- The four serde formats, `src/events/payload_serializer/mod.rs:53-59`. -/
inductive Format where
  | messagepack
  | bincode
  | postcard
  | json
deriving DecidableEq, Repr

/-- `SerializationError`, `src/events/payload_serializer/mod.rs:21-51`.
The errors of the four external format crates (lines 23-41) are one opaque constructor `format`. -/
inductive SerErr where
  | format
  | io (e : IoErr)
  | unavailableFormat (f : Format)
  | unknownFormat (n : Nat)
deriving DecidableEq, Repr

/-- `Error`, `src/error.rs:10-48`. `SerializationError` payloads as above; the public key of
`UnknownPeer` is its 32 bytes. -/
inductive Error where
  | io (e : IoErr)
  | serialization (e : SerErr)
  | build (msg : String)
  | message (msg : String)
  | receive
  | corruptedEvent
  | send
  | errorEvent (code : UInt16) (message : String)
  | timeout
  | unsupportedVersion (version : String)
  | invalidState
  | unknownPeer (key : Bytes)
deriving DecidableEq, Repr

/-- What running a piece of (async) Rust code can lead to: a value, an `Err`, a panic, or
(`hang`) a future that stays pending for ever. -/
inductive Outcome (α : Type) where
  | ok (a : α)
  | err (e : Error)
  | panic
  | hang
deriving DecidableEq, Repr

namespace Outcome

/-- Sequencing with Rust's `?` operator: errors, panics and hangs are propagated. -/
def bind {α β : Type} (x : Outcome α) (f : α → Outcome β) : Outcome β :=
  match x with
  | ok a => f a
  | err e => err e
  | panic => panic
  | hang => hang

def map {α β : Type} (f : α → β) (x : Outcome α) : Outcome β :=
  x.bind fun a => ok (f a)

instance : Monad Outcome where
  pure := ok
  bind := bind

@[simp] theorem bind_ok {α β : Type} (a : α) (f : α → Outcome β) : (ok a >>= f) = f a := rfl
@[simp] theorem bind_err {α β : Type} (e : Error) (f : α → Outcome β) :
    ((err e : Outcome α) >>= f) = err e := rfl
@[simp] theorem bind_panic {α β : Type} (f : α → Outcome β) :
    ((panic : Outcome α) >>= f) = panic := rfl
@[simp] theorem bind_hang {α β : Type} (f : α → Outcome β) :
    ((hang : Outcome α) >>= f) = hang := rfl
@[simp] theorem pure_eq {α : Type} (a : α) : (pure a : Outcome α) = ok a := rfl

theorem bind_assoc' {α β γ : Type} (x : Outcome α) (f : α → Outcome β) (g : β → Outcome γ) :
    (x >>= f) >>= g = x >>= fun a => f a >>= g := by
  cases x <;> rfl

theorem bind_eq_ok {α β : Type} {x : Outcome α} {f : α → Outcome β} {b : β} :
    (x >>= f) = ok b ↔ ∃ a, x = ok a ∧ f a = ok b := by
  cases x <;> simp

@[simp] theorem map_ok {α β : Type} (f : α → β) (a : α) : (ok a).map f = ok (f a) := rfl
@[simp] theorem map_err {α β : Type} (f : α → β) (e : Error) : (err e : Outcome α).map f = err e := rfl
@[simp] theorem map_panic {α β : Type} (f : α → β) : (panic : Outcome α).map f = panic := rfl
@[simp] theorem map_hang {α β : Type} (f : α → β) : (hang : Outcome α).map f = hang := rfl

end Outcome
end Bromine
