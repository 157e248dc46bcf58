import Verif.Model.LayerLink
/-
Shutting down a connection with encrypted layers: `poll_shutdown` of `EncryptedWriteStream<T>`, for `T` a socket or itself encrypted. Bromine never calls it; whoever uses an encrypted stream as an `AsyncWrite` may.
-/
namespace Bromine.Layers
open Bromine CryptIO

/-- `poll_shutdown` of the socket (tokio's `OwnedWriteHalf`); its answers are those of any other poll. -/
def socketShutdown (s : Socket) : Poll Unit × Socket :=
  match s.answers with
  | [] => (.pending true, s)
  | .pending :: as => (.pending true, { s with answers := as })
  | .fail e :: as => (.ready (.error e), { s with answers := as })
  | .ready _ :: as => (.ready (.ok ()), { s with answers := as })

/-- `poll_shutdown` of `n` encrypted layers over a socket, io_impl.rs:176-198; the Boolean says if the socket has been asked to shut down. After the flush of a layer the future is only created, not polled (line 182), so
no waker is registered; it owns the transport (line 181), which is dropped with it (line 192). Simplified: dropping the transport does nothing. -/
def pollShutdown (A : Aead) : (n : Nat) → WState n → Poll Unit × Bool × WState n
  | 0, s => let (p, s) := socketShutdown s; (p, true, s)
  | n + 1, (ws, t) =>
    if ws.futShutdown then
      match pollShutdown A n t with
      | (.ready r, b, t) => (.ready r, b, ({ ws with futShutdown := false }, t))
      | (.pending w, b, t) => (.pending w, b, (ws, t))
      | (.panic, b, t) => (.panic, b, (ws, t))
    else
      match pollFlush (layersW A n) A (ws, t) with
      | (.ready (.ok _), ws, t) => if ws.inner then (.pending false, false, ({ ws with inner := false, futShutdown := true }, t)) else (.panic, false, (ws, t))
      | (.ready (.error e), ws, t) => (.ready (.error e), false, (ws, t))
      | (.pending w, ws, t) => (.pending w, false, (ws, t))
      | (.panic, ws, t) => (.panic, false, (ws, t))

/-- The answers that the socket will give in the next poll. -/
def answering (A : Aead) (n : Nat) (w : WState n) (as : List IoAns) : WState n := (layersW A n).setBase w { (layersW A n).base w with answers := as }

/-- The shutdown is polled again and again, with these answers of the socket in each poll: the results, whether the socket was asked, and the write halves at the end. -/
def shutdownPolls (A : Aead) (n : Nat) : WState n → List (List IoAns) → List (Poll Unit × Bool) × WState n
  | w, [] => ([], w)
  | w, as :: ps =>
    let (p, b, w) := pollShutdown A n (answering A n w as)
    let (rs, w) := shutdownPolls A n w ps
    ((p, b) :: rs, w)

/-- What comes of `shutdown().await`. -/
inductive Awaited where
  | done (r : Except IoErr Unit)
  | panic
  /-- The task is waiting for the socket to wake it up. -/
  | waiting
  /-- The task waits for a wake-up that nobody has been asked for. -/
  | forgotten

/-- `shutdown().await` in a task: it is polled, and then again only when it has been woken; with the answers of the socket in each poll. -/
def shutdownAwait (A : Aead) (n : Nat) : WState n → List (List IoAns) → Awaited × Bool × WState n
  | w, [] => (.waiting, false, w)
  | w, as :: ps =>
    match pollShutdown A n (answering A n w as) with
    | (.ready r, b, w) => (.done r, b, w)
    | (.panic, b, w) => (.panic, b, w)
    | (.pending false, b, w) => (.forgotten, b, w)
    | (.pending true, b, w) => let (x, b', w) := shutdownAwait A n w ps; (x, b || b', w)

/-- The write halves after a poll. -/
def applyW (A : Aead) (n : Nat) (w : WState n) : WOp → WState n
  | .write buf as => ((layersW A n).pollWrite (answering A n w as) buf).2
  | .flush as => ((layersW A n).pollFlush (answering A n w as)).2
  | .shutdown as => (pollShutdown A n (answering A n w as)).2.2

end Bromine.Layers
