import Verif.Model.Refine
/-
What the acts of the polls of a request mean for the process (C68).
-/
namespace Bromine.Refine
open Endpoint

/-- What an act does to the process. -/
def Claimed {CB P : Type} (cfg : Config CB) (a : Params P) (s : Endpoint.State CB) (x : Act) (s' : Endpoint.State CB) : Prop :=
  match x with
  | .register e =>
    s'.listeners = upd s.listeners (cfg.group a.conn) (upd (s.listeners (cfg.group a.conn)) e.id (some a.r)) ∧ s'.out = s.out ∧
      ∃ q, s'.reqs a.r = some q ∧ q.event = e ∧ q.conn = a.conn ∧ q.kind = a.kind ∧ q.buf = []
  | .sent e =>
    s'.listeners = s.listeners ∧ s'.out = upd s.out a.conn (s.out a.conn ++ [{ origin := a.ctx.origin, event := e }]) ∧
      (s'.reqs a.r).map (·.buf) = (s.reqs a.r).map (·.buf)
  | .got e => s'.listeners = s.listeners ∧ s'.out = s.out ∧ (s.reqs a.r).map (·.buf) = (s'.reqs a.r).map (fun q => e :: q.buf)
  | .unregister id =>
    s'.listeners = upd s.listeners (cfg.group a.conn) (upd (s.listeners (cfg.group a.conn)) id none) ∧ s'.out = s.out ∧
      (s'.reqs a.r).map (·.buf) = (s.reqs a.r).map (·.buf)
  | _ => s'.listeners = s.listeners ∧ s'.out = s.out ∧ (s'.reqs a.r).map (·.buf) = (s.reqs a.r).map (·.buf)

/-- What the owner of the request is told fits what has been done and seen in the poll (`A`). -/
def ToldRight {P : Type} (env : Env P) (A : List Act) : Got → Prop
  -- nothing has been taken from the channel, no outcome has been reached
  | .pending => ∀ x ∈ A, (∃ e, x = .register e) ∨ ∃ e, x = .sent e
  -- the reply is what the channel has yielded
  | .reply (.ok e) => .got e ∈ A
  -- an error: an error event of the peer, a closed channel, the timeout, a failed write, or nothing has been sent
  | .reply (.err x) =>
    (∃ e, .got e ∈ A ∧ e.eventType = .error) ∨ (.closed ∈ A ∧ x = .send) ∨ (.timedOut ∈ A ∧ x = .timeout) ∨
      (∃ e, .failed e ∈ A ∧ env.writing e = .ready (.err x)) ∨ A = []
  -- there is a stream only if the request has been written
  | .opened (.ok _) => ∃ e, .sent e ∈ A
  | .opened (.err x) => (∃ e, .failed e ∈ A ∧ env.writing e = .ready (.err x)) ∨ A = []
  | .item (some (.ok e)) => .got e ∈ A
  | .item (some (.err x)) => .timedOut ∈ A ∧ x = .timeout
  | .item none => .closed ∈ A ∨ A = []
  | _ => True

end Bromine.Refine
