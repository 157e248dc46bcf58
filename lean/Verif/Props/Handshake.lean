import Verif.Lemmas.HandshakePair
import Verif.Spec.Handshake
import Verif.Props.CryptPoll
/-
C41, C42, C54, C55, C38 (across sessions): the key exchange.
-/
namespace Bromine.Props
open Bromine Bromine.Spec Bromine.CryptIO Bromine.Handshake

theorem trusts_iff {D : DH} {k : Keys} {p : Bytes} : Trusts D k p ↔ k.refuses D p = false := by
  unfold Trusts Keys.refuses
  cases k.allowUnknown <;> simp

theorem newSession_client (fresh : Bytes) : NewSession fresh (clientStream fresh) := by simp [NewSession, clientStream]

theorem newSession_server (K fresh : Bytes) : NewSession fresh (serverStream K fresh) := by simp [NewSession, serverStream]

/-! ### C41 -/

/-- C41. Over an undisturbed connection, for all secrets, in every schedule, with every division of reads and writes, also if the transport fails
or a side is closed: when both sides have completed the exchange, they start a session with the same key, the one that the server generated, with all counters zero;
what is left unread on a side is exactly what the other side has sent after it had completed the exchange (which the server may do before the client has). -/
theorem C41_agreement (A : Aead) (D : DH) (sk ck : Keys) (fresh : Bytes) (hf : fresh.length = 32) (ops : List PairOp) (p : Pair)
    (hr : Pair.run A D sk ck fresh (Pair.init D ck) ops = some p) (s c : CryptStream) (hs : p.server.phase = .done s) (hc : p.client.phase = .done c) :
    NewSession fresh s ∧ NewSession fresh c ∧ p.server.inbox = p.clientMore ∧ p.client.inbox = p.serverMore := by
  have h := PInv.init.run hf hr
  have h1 := h.server
  have h2 := h.client
  rw [hs] at h1
  obtain ⟨o, g1, g2, g3⟩ := h1
  have ho := accepted_is g1 (D.pub_len ck.secret) h.server_got
  have h2' := h2
  rw [hc] at h2'
  obtain ⟨hcs, o', ⟨g4, l, g5⟩, g6⟩ := h2'
  have : o' = D.pub sk.secret := by
    rw [h.s2c, g3, List.append_assoc] at g5
    exact (List.append_inj g5 ((D.pub_len _).trans g4.symm)).1.symm
  have g7 := h.honest (this ▸ g6)
  rw [hc] at g7
  obtain ⟨g8, g9⟩ := g7
  refine ⟨g2 ▸ newSession_server _ _, g8 ▸ newSession_client _, ?_, ?_⟩
  · obtain ⟨-, -, g10⟩ := g1
    rw [h.c2s, hcs, ho] at g10
    exact (List.append_cancel_left g10).symm
  · rw [h.s2c, g3, ho, D.comm sk.secret ck.secret] at g9
    exact (List.append_cancel_left g9).symm

theorem not_bad {as : List IoAns} (h : (∀ e, IoAns.fail e ∉ as) ∧ IoAns.ready 0 ∉ as) : ¬ CryptWire.Bad as := by
  rintro (⟨e, he⟩ | he)
  · exact h.1 e he
  · exact h.2 he

/-- No side has failed and no side is closed. -/
def Fine (p : Pair) : Prop :=
  (∀ e, p.server.phase ≠ .failed e) ∧ (∀ e, p.client.phase ≠ .failed e) ∧ p.server.closed = false ∧ p.client.closed = false

theorem fine_step {A : Aead} {D : DH} {sk ck : Keys} {fresh : Bytes} (hf : fresh.length = 32) (hsk : Trusts D sk (D.pub ck.secret))
    (hck : Trusts D ck (D.pub sk.secret)) {p p' : Pair} {op : PairOp} (hn : NoFault op) (h : PInv A D sk ck fresh p) (hfi : Fine p)
    (hs : p.step A D sk ck fresh op = some p') : Fine p' := by
  rw [trusts_iff] at hsk hck
  obtain ⟨f1, f2, f3, f4⟩ := hfi
  cases op with
  | closeServer => exact hn.elim
  | closeClient => exact hn.elim
  | server k as =>
    simp only [Pair.step, Option.bind_eq_bind] at hs
    obtain ⟨s, h1, h2⟩ := Option.bind_eq_some_iff.1 hs
    have hph : ∀ e, s.phase ≠ .failed e := by
      cases h1
      intro e he
      have := (serverPoll_inv (A := A) (D := D) (as := as) (closed := p.server.closed && decide (p.server.inbox.length ≤ k))
        (inp := p.server.inbox.take k) (tail := p.server.inbox.drop k) hf (by rw [List.take_append_drop]; exact h.server)).2 e he
      rcases this with h3 | h3 | ⟨-, h3⟩ | ⟨key, -, h3, l, h4, h5⟩
      · exact f1 e h3
      · exact not_bad hn h3
      · simp [f3] at h3
      · obtain ⟨rest, l', hrest⟩ := h.server_got
        rw [h4, List.append_assoc] at hrest
        have := (List.append_inj hrest (h5.trans (D.pub_len _).symm)).1
        rw [this, hsk] at h3
        cases h3
    obtain ⟨g1, g2, w, g3⟩ := Side.poll_facts h1
    split at h2
    · cases h2; exact ⟨hph, f2, g2.trans f3, f4⟩
    · obtain ⟨c, h3, h4⟩ := Option.bind_eq_some_iff.1 h2
      cases h4
      have := Side.arrive_facts h3
      rw [this]
      exact ⟨hph, f2, g2.trans f3, f4⟩
  | client k as =>
    simp only [Pair.step, Option.bind_eq_bind] at hs
    obtain ⟨c, h1, h2⟩ := Option.bind_eq_some_iff.1 hs
    have hph : ∀ e, c.phase ≠ .failed e := by
      cases h1
      intro e he
      obtain ⟨more, extra, hm⟩ := h.more
      have := (clientPoll_hon (A := A) (D := D) (as := as) (closed := p.client.closed && decide (p.client.inbox.length ≤ k)) (sent := p.client.sent)
        (inp := p.client.inbox.take k) (tail := p.client.inbox.drop k) hf (D.pub_len _) hck (by rw [List.take_append_drop]; exact h.honest hck)
        (by rw [List.take_append_drop]; exact h.client) (by simp [f4]) hm).2.1 e he
      rcases this with h3 | h3 | ⟨h3, -⟩
      · exact f2 e h3
      · exact not_bad hn h3
      · simp [f4] at h3
    obtain ⟨g1, g2, w, g3⟩ := Side.poll_facts h1
    split at h2
    · cases h2; exact ⟨f1, hph, f3, g2.trans f4⟩
    · obtain ⟨s, h3, h4⟩ := Option.bind_eq_some_iff.1 h2
      cases h4
      have := Side.arrive_facts h3
      rw [this]
      exact ⟨f1, hph, f3, g2.trans f4⟩
  | moreServer bs =>
    simp only [Pair.step] at hs
    split at hs
    · obtain ⟨c, h3, h4⟩ := Option.map_eq_some_iff.1 hs
      cases h4
      rw [Side.arrive_facts h3]
      exact ⟨f1, f2, f3, f4⟩
    · cases hs
  | moreClient bs =>
    simp only [Pair.step] at hs
    split at hs
    · obtain ⟨c, h3, h4⟩ := Option.map_eq_some_iff.1 hs
      cases h4
      rw [Side.arrive_facts h3]
      exact ⟨f1, f2, f3, f4⟩
    · cases hs

theorem fine_run {A : Aead} {D : DH} {sk ck : Keys} {fresh : Bytes} (hf : fresh.length = 32) (hsk : Trusts D sk (D.pub ck.secret))
    (hck : Trusts D ck (D.pub sk.secret)) {p p' : Pair} {ops : List PairOp} (hn : ∀ op ∈ ops, NoFault op) (h : PInv A D sk ck fresh p) (hfi : Fine p)
    (hs : p.run A D sk ck fresh ops = some p') : Fine p' := by
  induction ops generalizing p with
  | nil => cases hs; exact hfi
  | cons op ops ih =>
    obtain ⟨t, h1, h2⟩ := Option.bind_eq_some_iff.1 hs
    exact ih (fun op hop => hn op (by simp [hop])) (h.step hf h1) (fine_step hf hsk hck (hn op (by simp)) h hfi h1) h2

theorem pair_client {A : Aead} {D : DH} {sk ck : Keys} {fresh : Bytes} {p : Pair} (hcl : p.server.closed = false) (k : Nat) (as : List IoAns) :
    ∃ p', p.step A D sk ck fresh (.client k as) = some p' ∧
      p'.client.phase = (clientPoll A D ck p.client.phase (p.client.closed && decide (p.client.inbox.length ≤ k)) (p.client.inbox.take k) as).phase ∧
      p'.client.sent = p.client.sent ++ (clientPoll A D ck p.client.phase (p.client.closed && decide (p.client.inbox.length ≤ k)) (p.client.inbox.take k) as).sent ∧
      p'.server.phase = p.server.phase := by
  simp only [Pair.step, Side.step, Option.bind_eq_bind, Option.bind_some]
  split
  · exact ⟨_, rfl, rfl, rfl, rfl⟩
  · rw [hcl, if_neg (by simp)]
    exact ⟨_, rfl, rfl, rfl, rfl⟩

theorem pair_server {A : Aead} {D : DH} {sk ck : Keys} {fresh : Bytes} {p : Pair} (hcl : p.client.closed = false) (k : Nat) (as : List IoAns) :
    ∃ p', p.step A D sk ck fresh (.server k as) = some p' ∧
      p'.server.phase = (serverPoll A D sk fresh p.server.phase (p.server.closed && decide (p.server.inbox.length ≤ k)) (p.server.inbox.take k) as).phase ∧
      p'.client.phase = p.client.phase := by
  simp only [Pair.step, Side.step, Option.bind_eq_bind, Option.bind_some]
  split
  · exact ⟨_, rfl, rfl, rfl⟩
  · rw [hcl, if_neg (by simp)]
    exact ⟨_, rfl, rfl, rfl⟩

theorem noFault4 {n : Nat} (hn : 84 ≤ n) : (∀ e, IoAns.fail e ∉ ready4 n) ∧ IoAns.ready 0 ∉ ready4 n := by
  refine ⟨by simp [ready4], ?_⟩
  simp only [ready4, List.mem_cons, IoAns.ready.injEq, List.not_mem_nil, or_false]
  omega

/-- C41: if the sides trust each other and the transport works, no side fails or panics; and at every moment of every schedule the exchange can be completed by
three more polls that find a transport that takes what it is given and has delivered what was sent. -/
theorem C41_completes (A : Aead) (D : DH) (sk ck : Keys) (fresh : Bytes) (hf : fresh.length = 32) (hsk : Trusts D sk (D.pub ck.secret))
    (hck : Trusts D ck (D.pub sk.secret)) (ops : List PairOp) (hn : ∀ op ∈ ops, NoFault op) (p : Pair)
    (hr : Pair.run A D sk ck fresh (Pair.init D ck) ops = some p) :
    (∀ e, p.server.phase ≠ .failed e) ∧ (∀ e, p.client.phase ≠ .failed e) ∧ p.server.phase ≠ .panicked ∧ p.client.phase ≠ .panicked ∧
    ∀ n, 84 ≤ n → ∃ k₁ k₂ k₃ p' s c,
      Pair.run A D sk ck fresh p [.client k₁ [.ready n, .ready n, .ready n, .ready n], .server k₂ [.ready n, .ready n, .ready n, .ready n],
        .client k₃ [.ready n, .ready n, .ready n, .ready n]] = some p' ∧
      p'.server.phase = .done s ∧ p'.client.phase = .done c := by
  have h := PInv.init.run hf hr
  have hfi := fine_run hf hsk hck hn PInv.init ⟨by simp [Pair.init, serverInit], by simp [Pair.init, clientInit], rfl, rfl⟩ hr
  refine ⟨hfi.1, hfi.2.1, fun hp => ?_, fun hp => ?_, ?_⟩
  · have := h.server; rw [hp] at this; exact this
  · have := h.client; rw [hp] at this; exact this
  intro n hn84
  have hck' := trusts_iff.1 hck
  have hsk' := trusts_iff.1 hsk
  obtain ⟨p1, s1, a1, b1, -⟩ := pair_client (A := A) (D := D) (sk := sk) (ck := ck) (fresh := fresh) hfi.2.2.1 p.client.inbox.length (ready4 n)
  have h1 := h.step hf s1
  have f1 := fine_step hf hsk hck (op := .client _ _) (noFault4 hn84) h hfi s1
  have hsent : p1.client.sent = D.pub ck.secret := by
    rw [b1, List.take_length]
    exact clientPoll_sends hn84 h.client (fun e => hfi.2.1 e)
  obtain ⟨p2, s2, a2, b2⟩ := pair_server (A := A) (D := D) (sk := sk) (ck := ck) (fresh := fresh) f1.2.2.2 p1.server.inbox.length (ready4 n)
  have h2 := h1.step hf s2
  have f2 := fine_step hf hsk hck (op := .server _ _) (noFault4 hn84) h1 f1 s2
  obtain ⟨st, hst⟩ := serverPoll_done (A := A) (D := D) (closed := p1.server.closed && decide (p1.server.inbox.length ≤ p1.server.inbox.length)) hf hn84 h1.server
    (key := D.pub ck.secret) (l := p1.clientMore) (by rw [h1.c2s, hsent]) (D.pub_len _) hsk' f1.1
  rw [List.take_length, hst] at a2
  obtain ⟨p3, s3, a3, -, b3⟩ := pair_client (A := A) (D := D) (sk := sk) (ck := ck) (fresh := fresh) f2.2.2.1 p2.client.inbox.length (ready4 n)
  have hfull : p2.client.got = D.pub sk.secret ++ secretPkg A (D.dh ck.secret (D.pub sk.secret)) fresh ++ p2.serverMore := by
    have hsv := h2.server
    rw [a2] at hsv
    obtain ⟨o, g1, g2, g3⟩ := hsv
    have ho := accepted_is g1 (D.pub_len ck.secret) h2.server_got
    rw [h2.s2c, g3, ho, D.comm]
  have hdone := (clientPoll_hon (A := A) (D := D) (as := ready4 n) (closed := p2.client.closed && decide (p2.client.inbox.length ≤ p2.client.inbox.length)) (sent := p2.client.sent)
    (inp := p2.client.inbox) (tail := []) (more := []) hf (D.pub_len _) hck' (by simpa using h2.honest hck') (by simpa using h2.client) (by simp)
    (by rw [hfull, List.append_nil])).2.2 rfl rfl ⟨n, n, _, rfl, by omega⟩ f2.2.1
  rw [List.take_length, hdone] at a3
  refine ⟨p.client.inbox.length, p1.server.inbox.length, p2.client.inbox.length, p3, st, _, ?_, b3.trans a2, a3⟩
  simp only [Pair.run]
  rw [show [IoAns.ready n, .ready n, .ready n, .ready n] = ready4 n from rfl, s1, Option.bind_some, s2, Option.bind_some, s3, Option.bind_some]

/-- Keys and a schedule for the examples. -/
def exSecretS : Bytes := [1, 2, 3]
def exSecretC : Bytes := [9, 9]
def exFresh : Bytes := List.replicate 32 7
def exServerKeys : Keys := { secret := exSecretS, knownPeers := [toyDH.pub exSecretC] }
def exClientKeys : Keys := { secret := exSecretC, knownPeers := [toyDH.pub exSecretS] }
def exOps : List PairOp :=
  [.client 0 [.ready 10, .pending], .server 100 [], .client 0 [.ready 100, .ready 1], .server 20 [.ready 5], .server 12 [.ready 40, .ready 1, .ready 7],
   .client 40 [], .server 0 [.pending], .server 0 [.ready 100, .ready 1]]

/-- C41 is about something: an exchange with partial reads and writes, in which both complete. -/
example : (Pair.run toyAead toyDH exServerKeys exClientKeys exFresh (Pair.init toyDH exClientKeys) (exOps ++ [.client 100 []])).map
    (fun p => (p.server.phase, p.client.phase))
    = some (.done { read := { dec := { key := exFresh } }, write := { enc := { key := exFresh, log := [{ key := toyDH.dh exSecretC (toyDH.pub exSecretS), nonce := List.replicate 12 0, plain := exFresh }] } } },
            .done { read := { dec := { key := exFresh } }, write := { enc := { key := exFresh } } }) := by decide +kernel

example : Trusts toyDH exServerKeys (toyDH.pub exClientKeys.secret) ∧ Trusts toyDH exClientKeys (toyDH.pub exServerKeys.secret) ∧ ∀ op ∈ exOps, NoFault op :=
  ⟨Or.inr (by decide), Or.inr (by decide), by simp [exOps, NoFault]⟩

/-! ### C42 -/

/-- C42, the server. Whatever bytes arrive, in whatever pieces: if the first 32 of them are not a trusted key, the server sends nothing at all and the exchange
never succeeds; the result, if there is one, is `UnknownPeer` with that key (or the end of the stream). A poll that gets the key gives that result. -/
theorem C42_server_refuses (A : Aead) (D : DH) (keys : Keys) (fresh : Bytes) (hf : fresh.length = 32) (ops : List Handshake.Op) (s : Side SPhase)
    (hr : serverInit.run (serverPoll A D keys fresh) ops = some s) (key l : Bytes) (hg : s.got = key ++ l) (hk : key.length = 32) (hu : ¬ Trusts D keys key) :
    s.sent = [] ∧ ((∃ acc, s.phase = .recvPub acc) ∨ s.phase = .failed (.unknownPeer key) ∨ ∃ e, s.phase = .failed (.io e)) ∧
    (∀ acc, s.phase = .recvPub acc → ∀ k as, s.inbox.length ≤ k →
      ∃ s', s.step (serverPoll A D keys fresh) (.poll k as) = some s' ∧ s'.phase = .failed (.unknownPeer key) ∧ s'.sent = []) := by
  have h := serverRun_inv hf (serverInit_inv A D keys fresh) hr
  have hu : keys.refuses D key = true := by
    cases hx : keys.refuses D key
    · exact absurd (trusts_iff.2 hx) hu
    · rfl
  have hno : ∀ other, Accepted D keys s.got s.inbox other → False := by
    intro other ⟨a, b, c⟩
    rw [hg] at c
    rw [← (List.append_inj c (hk.trans a.symm)).1, hu] at b
    cases b
  cases hph : s.phase with
  | recvPub acc =>
    rw [hph] at h
    obtain ⟨h1, h2, h3⟩ := h
    refine ⟨h3, Or.inl ⟨acc, rfl⟩, ?_⟩
    rintro acc' hacc k as hk'
    injection hacc with hacc
    subst hacc
    have hpp : ∀ c, ∃ rest, pollPub c acc s.inbox = .got key rest := by
      intro c
      rcases pollPub_spec (closed := c) (inp := s.inbox) h1 with ⟨key', rest, g1, g2, g3⟩ | ⟨g1, g2⟩ | ⟨g1, g2⟩
      · obtain ⟨rfl, -⟩ := List.append_inj (s₁ := key') (t₁ := rest) (s₂ := key) (t₂ := l) (by rw [← g3, ← h2, hg]) (g2.trans hk.symm)
        exact ⟨rest, g1⟩
      · exfalso
        unfold pollPub at g1
        rw [if_pos] at g1
        · cases g1
        · rw [← List.length_append, ← h2, hg, List.length_append]; omega
      · exfalso
        rw [← h2, hg, List.length_append] at g2
        omega
    obtain ⟨rest, hpp⟩ := hpp (s.closed && decide (s.inbox.length ≤ k))
    have ht : s.inbox.take k = s.inbox := List.take_of_length_le hk'
    simp only [Side.step, hph, ht, serverPoll, hpp, hu, if_true]
    exact ⟨_, rfl, rfl, by simp [h3]⟩
  | sendPub other rem => rw [hph] at h; exact (hno _ h.1).elim
  | flushPub other => rw [hph] at h; exact (hno _ h.1).elim
  | writeSecret st => rw [hph] at h; exact h.elim
  | flushSecret st => rw [hph] at h; obtain ⟨o, r, h1, -⟩ := h; exact (hno _ h1).elim
  | done st => rw [hph] at h; obtain ⟨o, h1, -⟩ := h; exact (hno _ h1).elim
  | failed e =>
    rw [hph] at h
    rcases h with ⟨k, h1, h2, h3, h4, h5⟩ | ⟨er, h1, h2 | ⟨o, r, h2, h3⟩⟩
    · rw [hg] at h4
      obtain ⟨rfl, -⟩ := List.append_inj h4 (hk.trans h2.symm)
      exact ⟨h5, Or.inr (Or.inl (by rw [h1])), by simp⟩
    · exact ⟨h2, Or.inr (Or.inr ⟨er, by rw [h1]⟩), by simp⟩
    · exact (hno _ h2).elim
  | panicked => rw [hph] at h; exact h.elim

/-- C42, the client: if the first 32 bytes that arrive are not a trusted key, the client does not send anything but (part of) its own public key,
and the exchange never succeeds; the error is `UnknownPeer` with that key, or an i/o error. -/
theorem C42_client_refuses (A : Aead) (D : DH) (keys : Keys) (ops : List Handshake.Op) (s : Side CPhase)
    (hr : (clientInit D keys).run (clientPoll A D keys) ops = some s) (key l : Bytes) (hg : s.got = key ++ l) (hk : key.length = 32) (hu : ¬ Trusts D keys key) :
    (∃ rest, s.sent ++ rest = D.pub keys.secret) ∧ (∀ st, s.phase ≠ .done st) ∧ s.phase ≠ .panicked ∧
    (∀ e, s.phase = .failed e → e = .unknownPeer key ∨ ∃ er, e = .io er) := by
  have h := clientRun_inv (clientInit_inv D keys) hr
  have hu : keys.refuses D key = true := by
    cases hx : keys.refuses D key
    · exact absurd (trusts_iff.2 hx) hu
    · rfl
  have hno : ∀ other : Bytes, other.length = 32 → (∃ l, s.got = other ++ l) → other = key := by
    intro other a ⟨l', c⟩
    rw [hg] at c
    exact (List.append_inj c (hk.trans a.symm)).1.symm
  refine ⟨h.sent_prefix, ?_, ?_, ?_⟩
  · intro st hst
    rw [hst] at h
    obtain ⟨-, o, ⟨h1, h2⟩, h3⟩ := h
    rw [hno o h1 h2, hu] at h3
    cases h3
  · intro hp; rw [hp] at h; exact h
  · intro e he
    rw [he] at h
    rcases h.2 with h1 | ⟨o, h1, ⟨h2, h3⟩, h4⟩
    · exact Or.inr h1
    · exact Or.inl (by rw [h1, hno o h2 h3])

/-- C42: a trusted key is never refused, on either side. -/
theorem C42_trusted_pass (A : Aead) (D : DH) (keys : Keys) (fresh : Bytes) (hf : fresh.length = 32) (ops : List Handshake.Op) (key : Bytes) (ht : Trusts D keys key) :
    (∀ s, serverInit.run (serverPoll A D keys fresh) ops = some s → s.phase ≠ .failed (.unknownPeer key)) ∧
    (∀ s, (clientInit D keys).run (clientPoll A D keys) ops = some s → s.phase ≠ .failed (.unknownPeer key)) := by
  rw [trusts_iff] at ht
  constructor
  · intro s hr hp
    have h := serverRun_inv hf (serverInit_inv A D keys fresh) hr
    rw [hp] at h
    rcases h with ⟨k, h1, h2, h3, -⟩ | ⟨er, h1, -⟩
    · injection h1 with h1
      rw [← h1, ht] at h3
      cases h3
    · cases h1
  · intro s hr hp
    have h := clientRun_inv (clientInit_inv D keys) hr
    rw [hp] at h
    rcases h.2 with ⟨er, h1⟩ | ⟨o, h1, -, h3⟩
    · cases h1
    · injection h1 with h1
      rw [← h1, ht] at h3
      cases h3

/-- C42: the check is about the point, not its bytes: another encoding of a listed key is as good as the listed one, and leads to the same shared secret. -/
theorem C42_encodings (D : DH) (keys : Keys) (key other : Bytes) (hs : D.same key other = true) :
    (Trusts D keys key ↔ Trusts D keys other) ∧ D.dh keys.secret key = D.dh keys.secret other := by
  refine ⟨?_, D.same_dh _ _ _ hs⟩
  unfold Trusts
  constructor
  · rintro (h | ⟨p, h1, h2⟩)
    · exact Or.inl h
    · exact Or.inr ⟨p, h1, D.same_equiv.trans h2 hs⟩
  · rintro (h | ⟨p, h1, h2⟩)
    · exact Or.inl h
    · exact Or.inr ⟨p, h1, D.same_equiv.trans h2 (D.same_equiv.symm hs)⟩

/-- Two encodings of one key, for the toy key agreement. -/
example : toyDH.same [1, 2] [1, 2, 0] = true ∧ Trusts toyDH { secret := [7], knownPeers := [[1, 2]] } [1, 2, 0] := ⟨by decide, Or.inr ⟨[1, 2], by decide, by decide⟩⟩

/-- C42: with the default options nobody is trusted: a server with them refuses every client, and never sends anything; a client with them never completes. -/
theorem C42_default_options (A : Aead) (D : DH) (random fresh : Bytes) (hf : fresh.length = 32) (ops : List Handshake.Op) :
    (∀ s, serverInit.run (serverPoll A D (Keys.default random) fresh) ops = some s → s.sent = [] ∧ ∀ st, s.phase ≠ .done st) ∧
    (∀ s, (clientInit D (Keys.default random)).run (clientPoll A D (Keys.default random)) ops = some s → ∀ st, s.phase ≠ .done st) := by
  have hu : ∀ key, ¬ Trusts D (Keys.default random) key := by
    intro key h
    rcases h with h | ⟨p, h, -⟩
    · cases h
    · cases h
  have hu' : ∀ key, (Keys.default random).refuses D key = true := by
    intro key
    cases hx : (Keys.default random).refuses D key
    · exact absurd (trusts_iff.2 hx) (hu key)
    · rfl
  constructor
  · intro s hr
    have h := serverRun_inv hf (serverInit_inv A D (Keys.default random) fresh) hr
    have hno : ∀ other, ¬ Accepted D (Keys.default random) s.got s.inbox other := by
      rintro other ⟨-, b, -⟩
      rw [hu'] at b
      cases b
    cases hph : s.phase with
    | recvPub acc => rw [hph] at h; exact ⟨h.2.2, by simp⟩
    | sendPub other rem => rw [hph] at h; exact (hno _ h.1).elim
    | flushPub other => rw [hph] at h; exact (hno _ h.1).elim
    | writeSecret st => rw [hph] at h; exact h.elim
    | flushSecret st => rw [hph] at h; obtain ⟨o, r, h1, -⟩ := h; exact (hno _ h1).elim
    | done st => rw [hph] at h; obtain ⟨o, h1, -⟩ := h; exact (hno _ h1).elim
    | failed e =>
      rw [hph] at h
      rcases h with ⟨k, -, -, -, -, h5⟩ | ⟨er, h1, h2 | ⟨o, r, h2, h3⟩⟩
      · exact ⟨h5, by simp⟩
      · exact ⟨h2, by simp⟩
      · exact (hno _ h2).elim
    | panicked => rw [hph] at h; exact h.elim
  · intro s hr st hst
    have h := clientRun_inv (clientInit_inv D (Keys.default random)) hr
    rw [hst] at h
    obtain ⟨-, o, -, h3⟩ := h
    rw [hu'] at h3
    cases h3

/-- A stranger is refused, in pieces; the listed client and, with `allow_unknown`, the stranger are not. -/
example : (serverInit.run (serverPoll toyAead toyDH exServerKeys exFresh) [.arrive (List.replicate 20 5), .poll 20 [], .arrive (List.replicate 20 5), .poll 20 [.ready 100]]).map
    (fun s => (s.phase, s.sent)) = some (.failed (.unknownPeer (List.replicate 32 5)), []) := by decide +kernel

example : ¬ Trusts toyDH exServerKeys (List.replicate 32 5) := by
  rintro (h | h)
  · cases h
  · revert h; decide

/-! ### C54 -/

/-- C54 does not hold for the server: it completes the exchange with everyone who sends a trusted public key, of which no secret is known or needed. -/
theorem C54_violated_server (A : Aead) (D : DH) (keys : Keys) (fresh : Bytes) (hf : fresh.length = 32) (key : Bytes) (hk : key.length = 32)
    (ht : Trusts D keys key) (n : Nat) (hn : 84 ≤ n) :
    ∃ s st, serverInit.run (serverPoll A D keys fresh) [.arrive key, .poll 32 [.ready n, .ready n, .ready n, .ready n]] = some s ∧
      s.phase = .done st ∧ NewSession fresh st := by
  rw [trusts_iff] at ht
  have h0 : Side.step (serverPoll A D keys fresh) serverInit (.arrive key) = some { serverInit with inbox := key, got := key } := rfl
  have h1 := serverStep_inv hf (serverInit_inv A D keys fresh) h0
  have h2 : Side.step (serverPoll A D keys fresh) { serverInit with inbox := key, got := key } (.poll 32 (ready4 n)) = some _ := rfl
  have h3 := serverStep_inv hf h1 h2
  obtain ⟨st, hst⟩ := serverPoll_done (A := A) (D := D) (closed := false) hf hn h1 (l := []) (List.append_nil _).symm hk ht (by simp [serverInit])
  refine ⟨_, st, by simp only [Side.run, h0, Option.bind_some]; exact h2, ?_, ?_⟩
  · simp only [serverInit, Bool.false_and] at hst ⊢
    rw [List.take_of_length_le (Nat.le_of_eq hk)]
    exact hst
  · simp only [serverInit, Bool.false_and] at h3 hst
    rw [List.take_of_length_le (Nat.le_of_eq hk), hst] at h3
    obtain ⟨o, -, g2, -⟩ := h3
    rw [g2]
    exact newSession_server _ _

/-- C54, the client: when it completes, it has received, after a trusted public key, a package that somebody encrypted under the key
agreed with that public key. It need not have been encrypted in this session, see `C55_violated_replay`. -/
theorem C54_client (A : Aead) (D : DH) (keys : Keys) (ops : List Handshake.Op) (s : Side CPhase)
    (hr : (clientInit D keys).run (clientPoll A D keys) ops = some s) (st : CryptStream) (hd : s.phase = .done st) :
    ∃ key pkg plain l, s.got = key ++ pkg ++ l ∧ key.length = 32 ∧ Trusts D keys key ∧ Package A (D.dh keys.secret key) 0 plain pkg := by
  have h := clientRun_auth (A := A) clientInit_auth hr
  rw [hd] at h
  obtain ⟨o, h1, h2, pkg, l, plain, h3, h4, h5⟩ := h
  refine ⟨o, pkg, plain, l, h3, h1, trusts_iff.2 h2, nonceFromNumber (UInt64.ofNat 0), pkg.drop 4, pkg.take 4, nonce_spec 0, (A.dec_iff _ _ _ _).1 h5, ?_, ?_⟩
  · obtain ⟨g1, g2⟩ := complete_iff.1 h4
    rw [bigEndian_iff]
    refine ⟨by rw [List.length_take]; omega, ?_⟩
    rw [List.length_drop]
    omega
  · rw [List.take_append_drop]

/-- A client that completes. -/
example : ((clientInit toyDH exClientKeys).run (clientPoll toyAead toyDH exClientKeys)
    [.poll 0 [.ready 100, .ready 1], .arrive (toyDH.pub exSecretS ++ [0, 0, 0, 48] ++ toyTag (toyDH.dh exSecretC (toyDH.pub exSecretS)) (List.replicate 12 0) exFresh ++ exFresh), .poll 100 []]).map
    (fun s => match s.phase with | .done _ => true | _ => false) = some true := by decide +kernel

/-! ### C55 and C38 across sessions -/

/-- C55 does not hold: whatever the server sent in a session `p` with this client, replayed by anybody to a later connection of the client,
makes the client complete the exchange and start a session with the old key and with counters 0. Then it accepts, by C40, the recorded packages of the old session
as new events; and its own packages use the key and the nonces of the old session again. -/
theorem C55_violated_replay (A : Aead) (D : DH) (sk ck : Keys) (fresh : Bytes) (hf : fresh.length = 32) (hck : Trusts D ck (D.pub sk.secret))
    (ops : List PairOp) (p : Pair) (hr : Pair.run A D sk ck fresh (Pair.init D ck) ops = some p) (st : CryptStream) (hs : p.server.phase = .done st)
    (n : Nat) (hn : 84 ≤ n) :
    ∃ s st', (clientInit D ck).run (clientPoll A D ck) [.arrive p.server.sent, .poll 84 [.ready n, .ready n, .ready n, .ready n]] = some s ∧
      s.phase = .done st' ∧ NewSession fresh st' ∧ s.inbox = [] := by
  have h := PInv.init.run hf hr
  have hsv := h.server
  rw [hs] at hsv
  obtain ⟨o, g1, g2, g3⟩ := hsv
  have ho := accepted_is g1 (D.pub_len ck.secret) h.server_got
  rw [ho, D.comm] at g3
  have hlen : p.server.sent.length = 84 := by rw [g3, List.length_append, D.pub_len, length_secretPkg hf]
  have hck' := trusts_iff.1 hck
  let s1 : Side CPhase := { clientInit D ck with inbox := p.server.sent, got := p.server.sent }
  have h0 : Side.step (clientPoll A D ck) (clientInit D ck) (.arrive p.server.sent) = some s1 := rfl
  have c1 := clientStep_inv (clientInit_inv D ck) h0
  have c2 := clientStep_hon (A := A) (D := D) (fresh := fresh) hf (D.pub_len sk.secret) hck' clientInit_hon (clientInit_inv D ck) h0 ⟨[], [], by simpa [s1] using g3⟩
  have key := clientPoll_hon (A := A) (D := D) (as := ready4 n) (closed := false) (sent := s1.sent)
    (inp := s1.inbox) (tail := []) (more := []) (extra := []) hf (D.pub_len sk.secret) hck' (by simpa using c2) (by simpa using c1) (by simp)
    (by simpa [s1] using g3)
  have hdone := key.2.2 rfl rfl ⟨n, n, _, rfl, by omega⟩ (by simp [s1, clientInit])
  have hrest := key.1
  rw [hdone] at hrest
  have h2 : Side.step (clientPoll A D ck) s1 (.poll 84 (ready4 n)) = some _ := rfl
  refine ⟨_, clientStream fresh, by simp only [Side.run, h0, Option.bind_some]; exact h2, ?_, newSession_client _, ?_⟩
  · have ht : s1.inbox.take 84 = s1.inbox := List.take_of_length_le (Nat.le_of_eq hlen)
    rw [ht]
    exact hdone
  · have ht : s1.inbox.take 84 = s1.inbox := List.take_of_length_le (Nat.le_of_eq hlen)
    have hdr : s1.inbox.drop 84 = [] := List.drop_of_length_le (Nat.le_of_eq hlen)
    simp only [ht, hdr]
    have hgot : s1.got = D.pub sk.secret ++ secretPkg A (D.dh ck.secret (D.pub sk.secret)) fresh := g3
    exact List.append_cancel_left (hrest.2.symm.trans (hgot.trans (List.append_nil _).symm))

/-- C55: a client that was made to start the session `fresh` again takes the recorded packages of the server for new events. -/
theorem C55_violated_events (A : Aead) (fresh : Bytes) (st' : CryptStream) (hst : NewSession fresh st') (ops : List CryptWire.Op) (r : CryptWire.State)
    (hr : CryptWire.run A (CryptWire.init fresh) ops = some r) (hb : r.broken = false) (hl : r.lock = none) (hsm : ∀ t e, (t, e) ∈ r.log → Small e)
    (checks : Bool) (sc : Script) (hsc : sc.bytes = r.wire) :
    (readLoop (cryptSource A) checks (r.log.length + 1) { rs := st'.read, script := sc }).1 = r.log.map Prod.snd := by
  have hrd : st'.read = { dec := { key := fresh } } := by
    obtain ⟨h1, h2, h3, h4, -⟩ := hst
    rcases st' with ⟨⟨⟨k, c⟩, rem, fut⟩, w⟩
    simp only at h1 h2 h3 h4
    subst h1 h2 h3 h4
    rfl
  obtain ⟨es, h1, h2, -⟩ := C40_peer_reads A fresh ops r hr hb hsm checks sc hsc (r.log.length + 1) (by omega)
  rw [hrd, h1, h2 hl]

/-- C55, how far a replay goes: in a session with the key `fresh`, old or new, whatever bytes arrive, as long as nobody forges packages of that key: at each place the client delivers
only what the server (`sent`) or the client (`own`) has sent under that key at that place. So a replay delivers recorded events, in their order, from the first on, and nothing else. -/
theorem C55_only_recorded (A : Aead) (fresh : Bytes) (st' : CryptStream) (hst : NewSession fresh st') (sent own : List Event) (hs : ∀ e ∈ sent ++ own, Small e)
    (hn : sent.length + own.length < 2 ^ 64) (sc : Script)
    (unforged : ∀ (i : Nat) (nonce c p : Bytes), i < 2 ^ 64 → Nonce i nonce → c <:+: sc.bytes → A.dec fresh nonce c = some p →
      ∃ e, (sent[i]? = some e ∨ own[i]? = some e) ∧ FrameLayout e [0, 9, 0] [] p)
    (checks : Bool) (fuel : Nat) (hf : sent.length + own.length < fuel) :
    ∃ es r, readLoop (cryptSource A) checks fuel { rs := st'.read, script := sc } = (es, r) ∧
      (∀ (i : Nat) (e : Event), es[i]? = some e → sent[i]? = some e ∨ own[i]? = some e) ∧
      (r = .err (.io .invalidData) ∨ (r = .err (.io .unexpectedEof) ∧ sc.closed = true) ∨ (r = .hang ∧ sc.closed = false)) := by
  have hrd : st'.read = { dec := { key := fresh } } := by
    obtain ⟨h1, h2, h3, h4, -⟩ := hst
    rcases st' with ⟨⟨⟨k, c⟩, rem, fut⟩, w⟩
    simp only at h1 h2 h3 h4
    subst h1 h2 h3 h4
    rfl
  rw [hrd]
  exact C43_positions A fresh sent own hs hn sc unforged checks fuel hf

/-- Such a session is the one of the example above. -/
example : (Pair.run toyAead toyDH exServerKeys exClientKeys exFresh (Pair.init toyDH exClientKeys) exOps).map
    (fun p => match p.server.phase with | .done _ => true | _ => false) = some true := by decide +kernel

/-- C38 does not hold across sessions: in any two sessions between the same static keys the server encrypts its first message, the session key, under the same key
and the same nonce. -/
theorem C38_violated_sessions (A : Aead) (D : DH) (sk ck : Keys) (fresh fresh' : Bytes) (hf : fresh.length = 32) (hf' : fresh'.length = 32)
    (ops ops' : List PairOp) (p p' : Pair) (hr : Pair.run A D sk ck fresh (Pair.init D ck) ops = some p)
    (hr' : Pair.run A D sk ck fresh' (Pair.init D ck) ops' = some p') (st st' : CryptStream)
    (hs : p.server.phase = .done st) (hs' : p'.server.phase = .done st') :
    ∃ key nonce, { key := key, nonce := nonce, plain := fresh } ∈ st.write.enc.log ∧ { key := key, nonce := nonce, plain := fresh' } ∈ st'.write.enc.log := by
  have key : ∀ (fresh : Bytes) (p : Pair) (st : CryptStream), fresh.length = 32 → PInv A D sk ck fresh p → p.server.phase = .done st →
      { key := D.dh sk.secret (D.pub ck.secret), nonce := nonceFromNumber 0, plain := fresh } ∈ st.write.enc.log := by
    intro fresh p st hf h hs
    have hsv := h.server
    rw [hs] at hsv
    obtain ⟨o, g1, g2, g3⟩ := hsv
    have ho := accepted_is g1 (D.pub_len ck.secret) h.server_got
    rw [g2, ho]
    simp [serverStream, firstEnc]
  exact ⟨_, _, key fresh p st hf (PInv.init.run hf hr) hs, key fresh' p' st' hf' (PInv.init.run hf' hr') hs'⟩

end Bromine.Props
