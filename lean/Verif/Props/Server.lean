import Verif.Spec.Server
import Verif.Props.Handshake
/-
C35, C52, C56: the accept loop of a server.
-/
namespace Bromine.Props
open Bromine Bromine.Spec Bromine.CryptIO Bromine.Handshake Bromine.Server

section
variable {A : Aead} {D : DH} {l : Listener}

theorem server_run_append {s : Server.State} {ops ops' : List Server.Op} :
    Server.run A D l s (ops ++ ops') = (Server.run A D l s ops).bind fun s => Server.run A D l s ops' := by
  induction ops generalizing s with
  | nil => rfl
  | cons op ops ih =>
    simp only [List.cons_append, Server.run]
    cases Server.step A D l s op with
    | none => rfl
    | some t => exact ih

/-- An ended server stays as it is. -/
theorem ended_step {s s' : Server.State} {op : Server.Op} {r : Except Error Unit} (h : s.phase = .ended r) (hs : Server.step A D l s op = some s') :
    s'.phase = .ended r ∧ s'.served = s.served := by
  cases op with
  | bind r' => simp [Server.step, h] at hs
  | connect c => cases hs; exact ⟨h, rfl⟩
  | accept fresh => simp [Server.step, h] at hs
  | acceptFails e => simp [Server.step, h] at hs
  | exchange op => simp [Server.step, h] at hs

theorem ended_run {s s' : Server.State} {ops : List Server.Op} {r : Except Error Unit} (h : s.phase = .ended r) (hs : Server.run A D l s ops = some s') :
    s'.phase = .ended r ∧ s'.served = s.served := by
  induction ops generalizing s with
  | nil => cases hs; exact ⟨h, rfl⟩
  | cons op ops ih =>
    obtain ⟨t, h1, h2⟩ := Option.bind_eq_some_iff.1 hs
    obtain ⟨h3, h4⟩ := ended_step h h1
    obtain ⟨h5, h6⟩ := ih h3 h2
    exact ⟨h5, h6.trans h4⟩

/-- Everyone who connected was served, is in the exchange, or waits, in the order of connecting, until the server ends. -/
theorem account_step {s s' : Server.State} {op : Server.Op} (hs : Server.step A D l s op = some s') (hne : ∀ r, s'.phase ≠ .ended r) :
    s'.served.map Prod.fst ++ inExchange s' ++ s'.backlog = s.served.map Prod.fst ++ inExchange s ++ s.backlog ++ connected [op] := by
  cases op with
  | bind r =>
    simp only [Server.step] at hs
    split at hs
    · rename_i hp
      split at hs
      · cases hs; simp [inExchange, hp, connected]
      · cases hs; exact absurd rfl (hne _)
    · cases hs
  | connect c => cases hs; simp [connected, inExchange]
  | accept fresh =>
    simp only [Server.step] at hs
    split at hs
    · rename_i c cs hp hb
      split at hs
      · cases hs; simp [inExchange, hp, hb, connected]
      · cases hs; simp [inExchange, hp, hb, connected]
    · cases hs
  | acceptFails e =>
    simp only [Server.step] at hs
    split at hs
    · cases hs; exact absurd rfl (hne _)
    · cases hs
  | exchange op =>
    simp only [Server.step] at hs
    split at hs
    · rename_i c fresh side keys hp
      split at hs
      · cases hs
      · split at hs
        · cases hs; simp [inExchange, hp, connected]
        · cases hs; exact absurd rfl (hne _)
        · cases hs; exact absurd rfl (hne _)
        · cases hs; simp [inExchange, hp, connected]
    · cases hs

theorem account_run {s s' : Server.State} {ops : List Server.Op} (hs : Server.run A D l s ops = some s') (hne : ∀ r, s'.phase ≠ .ended r) :
    s'.served.map Prod.fst ++ inExchange s' ++ s'.backlog = s.served.map Prod.fst ++ inExchange s ++ s.backlog ++ connected ops := by
  induction ops generalizing s with
  | nil => cases hs; simp [connected]
  | cons op ops ih =>
    obtain ⟨t, h1, h2⟩ := Option.bind_eq_some_iff.1 hs
    have hnt : ∀ r, t.phase ≠ .ended r := fun r hr => hne r (ended_run hr h2).1
    rw [ih h2, account_step h1 hnt]
    simp only [connected, List.filterMap_cons, List.filterMap_nil]
    cases op <;> simp

/-! ### C35 -/

/-- C35: until the first error, every client that has connected is served, is the one in the key exchange, or waits to be accepted, in the order in which they
connected, each exactly once. After the first error nobody is served any more, see `C35_violated_accept` and `C35_violated_stranger`. -/
theorem C35_served_in_order (A : Aead) (D : DH) (l : Listener) (ops : List Server.Op) (s : Server.State) (hr : Server.run A D l {} ops = some s)
    (hne : ∀ r, s.phase ≠ .ended r) :
    s.served.map Prod.fst ++ inExchange s ++ s.backlog = connected ops := by
  simpa [inExchange] using account_run hr hne

/-- C35 does not hold: the first error of `accept` ends the server, with `Ok`; from then on nobody is served, whatever happens. -/
theorem C35_violated_accept (A : Aead) (D : DH) (l : Listener) (s : Server.State) (h : s.phase = .accepting) (e : IoErr) :
    ∃ s', Server.step A D l s (.acceptFails e) = some s' ∧ s'.phase = .ended (.ok ()) ∧
    ∀ ops s'', Server.run A D l s' ops = some s'' → s''.served = s.served := by
  refine ⟨{ s with phase := .ended (.ok ()) }, by simp [Server.step, h], rfl, fun ops s'' hr => ?_⟩
  exact (ended_run (r := .ok ()) rfl hr).2

/-- C35 does not hold: a stranger who connects to an encrypted server and sends 32 bytes that are not a trusted key ends the server for everyone. -/
theorem C35_violated_stranger (A : Aead) (D : DH) (keys : Keys) (key : Bytes) (hk : key.length = 32) (hu : ¬ Trusts D keys key) (fresh : Bytes)
    (hf : fresh.length = 32) (s : Server.State) (h : s.phase = .accepting) (c : Nat) (hb : s.backlog = []) :
    ∃ s', Server.run A D (.encrypted keys) s [.connect c, .accept fresh, .exchange (.arrive key), .exchange (.poll 32 [])] = some s' ∧
    s'.phase = .ended (.ok ()) ∧ ∀ ops s'', Server.run A D (.encrypted keys) s' ops = some s'' → s''.served = s.served := by
  have h0 : Side.run (serverPoll A D keys fresh) serverInit [.arrive key] = some { serverInit with inbox := key, got := key } := rfl
  obtain ⟨s1, g1, g2, g3⟩ := (C42_server_refuses A D keys fresh hf _ _ h0 key [] (by simp) hk hu).2.2 [] rfl 32 [] (Nat.le_of_eq hk)
  refine ⟨{ s with phase := .ended (.ok ()) }, ?_, rfl, fun ops s'' hr => (ended_run (r := .ok ()) rfl hr).2⟩
  rcases s with ⟨ph, bl, sv⟩
  simp only at h hb
  subst h hb
  have g1' : Side.step (serverPoll A D keys fresh) { phase := .recvPub [], inbox := key, got := key } (.poll 32 []) = some s1 := g1
  simp only [Server.run, Server.step, List.nil_append, Option.bind_some]
  have h1 : Side.step (serverPoll A D keys fresh) serverInit (.arrive key) = some { phase := .recvPub [], inbox := key, got := key } := rfl
  simp only [h1, Option.bind_some, g1', g2]

/-- There is such a server: one that has served somebody already. -/
example : (Server.run toyAead toyDH .plain {} [.bind (.ok ()), .connect 7, .accept []]).map (fun s => (s.served, s.backlog)) = some ([(7, none)], []) := rfl

/-! ### C52 -/

/-- C52 for plain connections: whoever waits can be served, by as many `accept`s as there are clients waiting, whatever the served clients do or do not do. -/
theorem C52_plain (A : Aead) (D : DH) (s : Server.State) (h : s.phase = .accepting) :
    ∃ s', Server.run A D .plain s (List.replicate s.backlog.length (.accept [])) = some s' ∧ s'.phase = .accepting ∧ s'.backlog = [] ∧
    s'.served = s.served ++ s.backlog.map (fun c => (c, none)) := by
  rcases s with ⟨ph, bl, sv⟩
  simp only at h ⊢
  subst h
  induction bl generalizing sv with
  | nil => exact ⟨_, rfl, rfl, rfl, by simp⟩
  | cons c cs ih =>
    obtain ⟨s', h1, h2, h3, h4⟩ := ih (sv ++ [(c, none)])
    refine ⟨s', ?_, h2, h3, by simp [h4]⟩
    simp only [List.length_cons, List.replicate_succ, Server.run, Server.step, Option.bind_some]
    exact h1

/-- A side that is waiting for the key of a client that stays silent goes on waiting. -/
theorem silent_step {keys : Keys} {fresh : Bytes} {side side' : Side SPhase} {op : Handshake.Op}
    (hop : ∃ k as, op = .poll k as) (h1 : side.phase = .recvPub [] ∧ side.inbox = [] ∧ side.closed = false)
    (hs : side.step (serverPoll A D keys fresh) op = some side') :
    side'.phase = .recvPub [] ∧ side'.inbox = [] ∧ side'.closed = false := by
  obtain ⟨k, as, rfl⟩ := hop
  obtain ⟨h1, h2, h3⟩ := h1
  cases hs
  simp [h1, h2, h3, serverPoll, pollPub]

theorem silent_run {keys : Keys} {fresh : Bytes} {c : Nat} {s s' : Server.State} {side : Side SPhase} {ops : List Server.Op}
    (hops : ∀ op, Server.Op.exchange op ∈ ops → ∃ k as, op = .poll k as) (hp : s.phase = .exchanging c fresh side)
    (h1 : side.phase = .recvPub [] ∧ side.inbox = [] ∧ side.closed = false) (hs : Server.run A D (.encrypted keys) s ops = some s') :
    (∃ side', s'.phase = .exchanging c fresh side') ∧ s'.served = s.served ∧ s'.backlog = s.backlog ++ connected ops := by
  induction ops generalizing s side with
  | nil => cases hs; exact ⟨⟨_, hp⟩, rfl, by simp [connected]⟩
  | cons op ops ih =>
    obtain ⟨t, g1, g2⟩ := Option.bind_eq_some_iff.1 hs
    have hops' : ∀ op, Server.Op.exchange op ∈ ops → ∃ k as, op = .poll k as := fun o ho => hops o (by simp [ho])
    cases op with
    | bind r => simp [Server.step, hp] at g1
    | accept f => simp [Server.step, hp] at g1
    | acceptFails e => simp [Server.step, hp] at g1
    | connect d =>
      cases g1
      obtain ⟨i1, i2, i3⟩ := ih (s := { s with backlog := s.backlog ++ [d] }) (side := side) hops' hp h1 g2
      exact ⟨i1, i2, by simp [i3, connected]⟩
    | exchange op =>
      simp only [Server.step, hp] at g1
      split at g1
      · cases g1
      · rename_i side' hside
        have h2 := silent_step (hops op (by simp)) h1 hside
        simp only [h2.1, Option.some.injEq] at g1
        subst g1
        obtain ⟨i1, i2, i3⟩ := ih (side := side') hops' rfl h2 g2
        exact ⟨i1, i2, by simp [i3, connected]⟩

/-- C52 does not hold for encrypted connections: after a client that connects and then stays silent (sends nothing, does not close), nobody is served, whoever connects and
however long the server runs. -/
theorem C52_violated (A : Aead) (D : DH) (keys : Keys) (fresh : Bytes) (s : Server.State) (h : s.phase = .accepting) (c : Nat) (hb : s.backlog = []) :
    ∃ s', Server.run A D (.encrypted keys) s [.connect c, .accept fresh] = some s' ∧
    ∀ ops s'', (∀ op, Server.Op.exchange op ∈ ops → ∃ k as, op = .poll k as) → Server.run A D (.encrypted keys) s' ops = some s'' →
      s''.served = s.served ∧ s''.backlog = connected ops := by
  refine ⟨{ s with backlog := [], phase := .exchanging c fresh serverInit }, by simp [Server.run, Server.step, h, hb], fun ops s'' ho hr => ?_⟩
  obtain ⟨-, h2, h3⟩ := silent_run ho rfl ⟨rfl, rfl, rfl⟩ hr
  exact ⟨h2, by simpa using h3⟩

/-- The server polls the silent client while two others wait. -/
example : ∃ s, Server.run toyAead toyDH (.encrypted { secret := [1], allowUnknown := true }) {}
    [.bind (.ok ()), .connect 1, .accept (List.replicate 32 7), .connect 2, .exchange (.poll 5 []), .connect 3, .exchange (.poll 5 [])] = some s ∧
    s.backlog = [2, 3] ∧ s.served = [] := ⟨_, rfl, rfl, rfl⟩

/-! ### C56 -/

/-- The exchange that is going on is one that can be reached. -/
def SrvInv (A : Aead) (D : DH) (l : Listener) (s : Server.State) : Prop :=
  ∀ c fresh side, s.phase = .exchanging c fresh side → fresh.length = 32 ∧ ∀ keys, l = .encrypted keys → SInv A D keys fresh side.phase side.got side.inbox side.sent

theorem srvInv_step {s s' : Server.State} {op : Server.Op} (hf : ∀ fresh, op = .accept fresh → fresh.length = 32) (h : SrvInv A D l s)
    (hs : Server.step A D l s op = some s') :
    SrvInv A D l s' ∧ (∀ e, s'.phase = .ended (.error e) → s.phase = .ended (.error e) ∨ op = .bind (.error e)) ∧
    (s'.phase ≠ .binding → s.phase ≠ .binding ∨ ∃ r, op = .bind r) := by
  cases op with
  | bind r =>
    simp only [Server.step] at hs
    split at hs
    · split at hs
      · cases hs; exact ⟨by simp [SrvInv], by simp, by simp⟩
      · cases hs; exact ⟨by simp [SrvInv], by simp, by simp⟩
    · cases hs
  | connect c => cases hs; exact ⟨h, fun e he => Or.inl he, fun hb => Or.inl hb⟩
  | accept fresh =>
    simp only [Server.step] at hs
    split at hs
    · rename_i c cs hp hb
      split at hs
      · cases hs; exact ⟨fun c f sd hc => by simp [hp] at hc, by simp [hp], by simp [hp]⟩
      · cases hs
        refine ⟨fun c f sd hc => ?_, by simp, by simp [hp]⟩
        cases hc
        exact ⟨hf fresh rfl, fun keys _ => serverInit_inv A D keys fresh⟩
    · cases hs
  | acceptFails e =>
    simp only [Server.step] at hs
    split at hs
    · rename_i hp; cases hs; exact ⟨by simp [SrvInv], by simp, by simp [hp]⟩
    · cases hs
  | exchange op =>
    simp only [Server.step] at hs
    split at hs
    · rename_i c fresh side keys hp
      split at hs
      · cases hs
      · rename_i side' hside
        obtain ⟨h1, h2⟩ := h c fresh side hp
        have h3 := serverStep_inv h1 (h2 keys rfl) hside
        split at hs
        · cases hs; exact ⟨by simp [SrvInv], by simp, by simp [hp]⟩
        · cases hs; exact ⟨by simp [SrvInv], by simp, by simp [hp]⟩
        · rename_i hpan
          rw [hpan] at h3
          exact h3.elim
        · cases hs
          refine ⟨fun c' f sd hc => ?_, by simp, by simp [hp]⟩
          cases hc
          refine ⟨h1, fun keys' hk => ?_⟩
          cases hk
          exact h3
    · cases hs

theorem srv_run {s s' : Server.State} {ops : List Server.Op} (hf : ∀ fresh, Server.Op.accept fresh ∈ ops → fresh.length = 32) (h : SrvInv A D l s)
    (hs : Server.run A D l s ops = some s') :
    SrvInv A D l s' ∧ (∀ e, s'.phase = .ended (.error e) → s.phase = .ended (.error e) ∨ Server.Op.bind (.error e) ∈ ops) ∧
    (s'.phase ≠ .binding → s.phase ≠ .binding ∨ ∃ r, Server.Op.bind r ∈ ops) := by
  induction ops generalizing s with
  | nil => cases hs; exact ⟨h, fun e he => Or.inl he, fun hb => Or.inl hb⟩
  | cons op ops ih =>
    obtain ⟨t, g1, g2⟩ := Option.bind_eq_some_iff.1 hs
    obtain ⟨h1, h2, h3⟩ := srvInv_step (fun f e => hf f (by simp [e])) h g1
    obtain ⟨i1, i2, i3⟩ := ih (fun f e => hf f (by simp [e])) h1 g2
    refine ⟨i1, fun e he => ?_, fun hb => ?_⟩
    · rcases i2 e he with h4 | h4
      · rcases h2 e h4 with h5 | h5
        · exact Or.inl h5
        · exact Or.inr (by simp [h5])
      · exact Or.inr (by simp [h4])
    · rcases i3 hb with h4 | ⟨r, h4⟩
      · rcases h3 h4 with h5 | ⟨r, h5⟩
        · exact Or.inl h5
        · exact Or.inr ⟨r, by simp [h5]⟩
      · exact Or.inr ⟨r, by simp [h4]⟩

theorem bind_error_ends {s s' : Server.State} {ops : List Server.Op} {e : Error} (h : Server.Op.bind (.error e) ∈ ops) (hs : Server.run A D l s ops = some s') :
    s'.phase = .ended (.error e) := by
  obtain ⟨pre, post, rfl⟩ := List.append_of_mem h
  rw [server_run_append] at hs
  obtain ⟨t, g1, g2⟩ := Option.bind_eq_some_iff.1 hs
  obtain ⟨u, g3, g4⟩ := Option.bind_eq_some_iff.1 g2
  simp only [Server.step] at g3
  split at g3
  · cases g3; exact (ended_run (r := .error e) rfl g4).1
  · cases g3

theorem binding_run {s s' : Server.State} {ops : List Server.Op} (hb : s.phase = .binding) (h : ∀ r, Server.Op.bind r ∉ ops) (hs : Server.run A D l s ops = some s') :
    s'.phase = .binding ∧ s'.served = s.served := by
  induction ops generalizing s with
  | nil => cases hs; exact ⟨hb, rfl⟩
  | cons op ops ih =>
    obtain ⟨t, g1, g2⟩ := Option.bind_eq_some_iff.1 hs
    have : t.phase = .binding ∧ t.served = s.served := by
      cases op with
      | bind r => exact absurd (by simp) (h r)
      | connect c => cases g1; exact ⟨hb, rfl⟩
      | accept f => simp [Server.step, hb] at g1
      | acceptFails e => simp [Server.step, hb] at g1
      | exchange op => simp [Server.step, hb] at g1
    obtain ⟨i1, i2⟩ := ih this.1 (fun r hr => h r (by simp [hr])) g2
    exact ⟨i1, i2.trans this.2⟩

/-- C56: in every run, `start` has returned the error `e` exactly if binding the listener failed with `e`; every other end is `Ok`. Nobody is served
before the listener is bound, and nobody after `start` has returned. -/
theorem C56_start_result (A : Aead) (D : DH) (l : Listener) (ops : List Server.Op) (s : Server.State)
    (hf : ∀ fresh, Server.Op.accept fresh ∈ ops → fresh.length = 32) (hr : Server.run A D l {} ops = some s) :
    (∀ e, s.phase = .ended (.error e) ↔ Server.Op.bind (.error e) ∈ ops) ∧
    ((∀ r, Server.Op.bind r ∉ ops) → s.served = []) ∧
    (∀ r, s.phase = .ended r → ∀ ops' s', Server.run A D l s ops' = some s' → s'.served = s.served ∧ s'.phase = .ended r) := by
  refine ⟨fun e => ⟨fun he => ?_, fun he => bind_error_ends he hr⟩, fun h => (binding_run rfl h hr).2, fun r h ops' s' h' => (ended_run h h').symm⟩
  rcases (srv_run hf (s := {}) (by simp [SrvInv]) hr).2.1 e he with h | h
  · cases h
  · exact h

example : ∃ s, Server.run toyAead toyDH .plain {} [.connect 1, .bind (.error .invalidState)] = some s ∧ s.served = [] := ⟨_, rfl, rfl⟩

/-! ### Who is served, and what ends the server -/

/-- What a step does to the list of served clients and to the end of the server. -/
theorem srv_effects {keys : Keys} {s s' : Server.State} {op : Server.Op} (h : SrvInv A D (.encrypted keys) s)
    (hs : Server.step A D (.encrypted keys) s op = some s') :
    (s'.served = s.served ∨ ∃ c fresh side o side' st key rest, op = .exchange o ∧ s.phase = .exchanging c fresh side ∧
      side.step (serverPoll A D keys fresh) o = some side' ∧ side'.got = key ++ rest ∧ key.length = 32 ∧ Trusts D keys key ∧
      NewSession fresh st ∧ s'.served = s.served ++ [(c, some st)] ∧ s'.phase = .accepting) ∧
    (s'.phase = .ended (.ok ()) → s.phase = .ended (.ok ()) ∨ (∃ e, op = .acceptFails e) ∨
      ∃ c fresh side o side', op = .exchange o ∧ s.phase = .exchanging c fresh side ∧ side.step (serverPoll A D keys fresh) o = some side' ∧
        ((∃ key rest, side'.phase = .failed (.unknownPeer key) ∧ side'.got = key ++ rest ∧ key.length = 32 ∧ ¬ Trusts D keys key) ∨
          ∃ e, side'.phase = .failed (.io e))) ∧
    (∀ c fresh side, s'.phase = .exchanging c fresh side → (∃ side0, s.phase = .exchanging c fresh side0) ∨ op = .accept fresh) := by
  cases op with
  | bind r =>
    simp only [Server.step] at hs
    split at hs
    · split at hs
      · cases hs; exact ⟨Or.inl rfl, by simp, by simp⟩
      · cases hs; exact ⟨Or.inl rfl, by simp, by simp⟩
    · cases hs
  | connect c => cases hs; exact ⟨Or.inl rfl, fun he => Or.inl he, fun c f sd hc => Or.inl ⟨_, hc⟩⟩
  | accept fresh =>
    simp only [Server.step] at hs
    split at hs
    · cases hs
      exact ⟨Or.inl rfl, by simp, fun c f sd hc => by cases hc; exact Or.inr rfl⟩
    · cases hs
  | acceptFails e =>
    simp only [Server.step] at hs
    split at hs
    · cases hs; exact ⟨Or.inl rfl, fun _ => Or.inr (Or.inl ⟨e, rfl⟩), by simp⟩
    · cases hs
  | exchange o =>
    simp only [Server.step] at hs
    split at hs
    · rename_i c fresh side keys' hp heq
      cases heq
      split at hs
      · cases hs
      · rename_i side' hside
        obtain ⟨h1, h2⟩ := h c fresh side hp
        have h3 := serverStep_inv h1 (h2 keys rfl) hside
        split at hs
        · rename_i st hd
          cases hs
          rw [hd] at h3
          obtain ⟨other, ⟨a1, a2, a3⟩, rfl, -⟩ := h3
          exact ⟨Or.inr ⟨c, fresh, side, o, side', _, other, side'.inbox, rfl, hp, hside, a3, a1, trusts_iff.2 a2, newSession_server _ _, rfl, rfl⟩,
            by simp, by simp⟩
        · rename_i e hd
          cases hs
          rw [hd] at h3
          refine ⟨Or.inl rfl, fun _ => Or.inr (Or.inr ⟨c, fresh, side, o, side', rfl, hp, hside, ?_⟩), by simp⟩
          rcases h3 with ⟨key, rfl, k1, k2, k3, -⟩ | ⟨er, rfl, -⟩
          · exact Or.inl ⟨key, side'.inbox, hd, k3, k1, fun ht => by simp [trusts_iff.1 ht] at k2⟩
          · exact Or.inr ⟨er, hd⟩
        · cases hs; exact ⟨Or.inl rfl, by simp, by simp⟩
        · cases hs; exact ⟨Or.inl rfl, by simp, fun c' f sd hc => by cases hc; exact Or.inl ⟨side, hp⟩⟩
    · cases hs

/-- A run up to a point. -/
theorem srv_split {P : Server.State → Prop} {s s' : Server.State} {ops : List Server.Op} (hs : Server.run A D l s ops = some s') (h0 : ¬ P s) (h1 : P s') :
    ∃ pre op post t t', ops = pre ++ op :: post ∧ Server.run A D l s pre = some t ∧ Server.step A D l t op = some t' ∧ ¬ P t ∧ P t' := by
  induction ops generalizing s with
  | nil => cases hs; exact absurd h1 h0
  | cons op ops ih =>
    obtain ⟨t, g1, g2⟩ := Option.bind_eq_some_iff.1 hs
    by_cases ht : P t
    · exact ⟨[], op, ops, s, t, rfl, rfl, g1, h0, ht⟩
    · obtain ⟨pre, o, post, u, u', rfl, e2, e3, e4, e5⟩ := ih g2 ht
      exact ⟨op :: pre, o, post, u, u', rfl, by simp [Server.run, g1, e2], e3, e4, e5⟩

theorem exchange_accepted {keys : Keys} {s : Server.State} {ops : List Server.Op} (hf : ∀ fresh, Server.Op.accept fresh ∈ ops → fresh.length = 32)
    (hr : Server.run A D (.encrypted keys) {} ops = some s) {c : Nat} {fresh : Bytes} {side : Side SPhase} (hp : s.phase = .exchanging c fresh side) :
    Server.Op.accept fresh ∈ ops := by
  obtain ⟨pre, op, post, t, t', rfl, e2, e3, e4, ⟨sd, e5⟩⟩ := srv_split (P := fun s => ∃ sd, s.phase = .exchanging c fresh sd) hr (by simp) ⟨side, hp⟩
  have hi := (srv_run (fun f hf' => hf f (by simp [hf'])) (s := {}) (by simp [SrvInv]) e2).1
  rcases (srv_effects hi e3).2.2 c fresh sd e5 with h | rfl
  · exact absurd h e4
  · simp

/-- C42, the server as a whole: every client that an encrypted server serves has gone through the key exchange, in which it has presented a trusted key, and it is
served with the session key that the server generated for this exchange. -/
theorem C42_served_are_trusted (A : Aead) (D : DH) (keys : Keys) (ops : List Server.Op) (s : Server.State)
    (hf : ∀ fresh, Server.Op.accept fresh ∈ ops → fresh.length = 32) (hr : Server.run A D (.encrypted keys) {} ops = some s)
    (c : Nat) (session : Option CryptStream) (hc : (c, session) ∈ s.served) :
    ∃ pre op post t fresh side side' key rest st, ops = pre ++ .exchange op :: post ∧ Server.run A D (.encrypted keys) {} pre = some t ∧
      t.phase = .exchanging c fresh side ∧ side.step (serverPoll A D keys fresh) op = some side' ∧
      side'.got = key ++ rest ∧ key.length = 32 ∧ Trusts D keys key ∧
      session = some st ∧ NewSession fresh st ∧ Server.Op.accept fresh ∈ pre := by
  obtain ⟨pre, op, post, t, t', rfl, e2, e3, e4, e5⟩ := srv_split (P := fun s => (c, session) ∈ s.served) hr (by simp) hc
  have hf' : ∀ f, Server.Op.accept f ∈ pre → f.length = 32 := fun f hf' => hf f (by simp [hf'])
  have hi := (srv_run hf' (s := {}) (by simp [SrvInv]) e2).1
  rcases (srv_effects hi e3).1 with h | ⟨c', fresh, side, o, side', st, key, rest, rfl, k2, k3, k4, k5, k6, k7, k8, -⟩
  · rw [h] at e5; exact absurd e5 e4
  · rw [k8, List.mem_append, List.mem_singleton] at e5
    rcases e5 with e5 | e5
    · exact absurd e5 e4
    · cases e5
      exact ⟨pre, o, post, t, fresh, side, side', key, rest, st, rfl, e2, k2, k3, k4, k5, k6, rfl, k7, exchange_accepted hf' e2 k2⟩

/-- A client that presents a trusted key is served. -/
example : (Server.run toyAead toyDH (.encrypted { secret := [1], allowUnknown := true }) {}
    [.bind (.ok ()), .connect 1, .accept (List.replicate 32 7), .exchange (.arrive (List.replicate 32 5)),
     .exchange (.poll 32 [.ready 100, .ready 100, .ready 100, .ready 100])]).map (fun s => s.served.map (fun x => (x.1, x.2.isSome))) = some [(1, true)] := by
  decide +kernel

/-- C35, exactly when a plain server ends: with the first error of `accept`, and for no other reason (a bind that fails does not start it, C56). -/
theorem C35_plain_ends_iff (A : Aead) (D : DH) (ops : List Server.Op) (s : Server.State) (hr : Server.run A D .plain {} ops = some s) :
    s.phase = .ended (.ok ()) ↔ ∃ e, Server.Op.acceptFails e ∈ ops := by
  constructor
  · intro h
    obtain ⟨pre, op, post, t, t', rfl, e2, e3, e4, e5⟩ := srv_split (P := fun s => s.phase = .ended (.ok ())) hr (by simp) h
    cases op with
    | bind r =>
      simp only [Server.step] at e3
      split at e3
      · split at e3
        · cases e3; cases e5
        · cases e3; cases e5
      · cases e3
    | connect c => cases e3; exact absurd e5 e4
    | accept f =>
      simp only [Server.step] at e3
      split at e3
      · rename_i hp _; cases e3; simp [hp] at e5
      · cases e3
    | acceptFails e => exact ⟨e, by simp⟩
    | exchange o =>
      simp only [Server.step] at e3
      split at e3
      · rename_i heq; cases heq
      · cases e3
  · rintro ⟨e, he⟩
    obtain ⟨pre, post, rfl⟩ := List.append_of_mem he
    rw [server_run_append] at hr
    obtain ⟨t, g1, g2⟩ := Option.bind_eq_some_iff.1 hr
    obtain ⟨u, g3, g4⟩ := Option.bind_eq_some_iff.1 g2
    simp only [Server.step] at g3
    split at g3
    · cases g3; exact (ended_run (r := .ok ()) rfl g4).1
    · cases g3

/-- C35, why an encrypted server has ended: an error of `accept`, or the key exchange with a client failed: the client presented a key that is not trusted, or
reading from it or writing to it failed. -/
theorem C35_encrypted_ends_only (A : Aead) (D : DH) (keys : Keys) (ops : List Server.Op) (s : Server.State)
    (hf : ∀ fresh, Server.Op.accept fresh ∈ ops → fresh.length = 32) (hr : Server.run A D (.encrypted keys) {} ops = some s)
    (h : s.phase = .ended (.ok ())) :
    (∃ e, Server.Op.acceptFails e ∈ ops) ∨
    ∃ pre op post t c fresh side side', ops = pre ++ .exchange op :: post ∧ Server.run A D (.encrypted keys) {} pre = some t ∧
      t.phase = .exchanging c fresh side ∧ side.step (serverPoll A D keys fresh) op = some side' ∧
      ((∃ key rest, side'.phase = .failed (.unknownPeer key) ∧ side'.got = key ++ rest ∧ key.length = 32 ∧ ¬ Trusts D keys key) ∨
        ∃ e, side'.phase = .failed (.io e)) := by
  obtain ⟨pre, op, post, t, t', rfl, e2, e3, e4, e5⟩ := srv_split (P := fun s => s.phase = .ended (.ok ())) hr (by simp) h
  have hi := (srv_run (fun f hf' => hf f (by simp [hf'])) (s := {}) (by simp [SrvInv]) e2).1
  rcases (srv_effects hi e3).2.1 e5 with h | ⟨e, rfl⟩ | ⟨c, fresh, side, o, side', rfl, k2, k3, k4⟩
  · exact absurd h e4
  · exact Or.inl ⟨e, by simp⟩
  · exact Or.inr ⟨pre, o, post, t, c, fresh, side, side', rfl, e2, k2, k3, k4⟩

/-- C35, C52: a failed key exchange ends the server, always; as long as an exchange goes on nobody else is accepted; when it has completed, the next client is. -/
theorem C35_exchange_decides (A : Aead) (D : DH) (keys : Keys) (s s' : Server.State) (c : Nat) (fresh : Bytes) (side side' : Side SPhase) (o : Handshake.Op)
    (hp : s.phase = .exchanging c fresh side) (ho : side.step (serverPoll A D keys fresh) o = some side')
    (hs : Server.step A D (.encrypted keys) s (.exchange o) = some s') :
    (∀ f, Server.step A D (.encrypted keys) s (.accept f) = none) ∧ s'.backlog = s.backlog ∧
    (∀ e, side'.phase = .failed e → s'.phase = .ended (.ok ()) ∧ s'.served = s.served) ∧
    (∀ st, side'.phase = .done st → s'.served = s.served ++ [(c, some st)] ∧
      ∀ d ds f, s.backlog = d :: ds → ∃ s'', Server.step A D (.encrypted keys) s' (.accept f) = some s'' ∧ s''.phase = .exchanging d f serverInit) := by
  simp only [Server.step, hp, ho] at hs
  refine ⟨fun f => by simp [Server.step, hp], ?_, fun e he => ?_, fun st hd => ?_⟩
  · split at hs <;> cases hs <;> rfl
  · simp only [he, Option.some.injEq] at hs
    subst hs
    exact ⟨rfl, rfl⟩
  · simp only [hd, Option.some.injEq] at hs
    subst hs
    exact ⟨rfl, fun d ds f hb => ⟨{ s with phase := .exchanging d f serverInit, backlog := ds, served := s.served ++ [(c, some st)] },
      by simp [Server.step, hb], rfl⟩⟩

end
end Bromine.Props
