import Verif.Lemmas.HandshakeErr
import Verif.Props.Handshake
/-
C76: what a key exchange with an arbitrary peer ends with, and what it waits for.
-/
namespace Bromine.Props
open Bromine Bromine.Spec Bromine.CryptIO Bromine.Handshake

theorem not_trusts_iff {D : DH} {k : Keys} {p : Bytes} : ¬ Trusts D k p ↔ k.refuses D p = true := by
  rw [trusts_iff]; simp

theorem heard_of_reads {A : Aead} {D : DH} {keys : Keys} {got key pkgs rest : Bytes} {plains : List Bytes} (h : Reads A D keys got key pkgs plains rest) :
    Heard A D keys got plains rest := ⟨key, pkgs, h.1, h.2.1, trusts_iff.2 h.2.2.1, h.2.2.2⟩

/-- **C76, server.** Whatever a client sends: the server's side of a key exchange does not panic. It fails only with the key of a stranger that the client has sent (`UnknownPeer`), with `UnexpectedEof` if the client
has closed the connection before its key was complete, or with an error of the transport. -/
theorem C76_server (A : Aead) (D : DH) (keys : Keys) (fresh : Bytes) (hf : fresh.length = 32) (ops : List Handshake.Op) (s : Side SPhase)
    (hr : serverInit.run (serverPoll A D keys fresh) ops = some s) :
    s.phase ≠ .panicked ∧ ∀ e, s.phase = .failed e →
      (∃ key, e = .unknownPeer key ∧ Stranger D keys s.got key) ∨ (e = .io .unexpectedEof ∧ s.closed = true ∧ s.got.length < 32) ∨ ∃ x, e = .io x ∧ TransportError ops x := by
  have h := serverRun_inv hf (serverInit_inv A D keys fresh) hr
  have hw := serverRun_why (pre := []) hf (serverInit_inv A D keys fresh) (by intro e he; cases he) hr
  refine ⟨fun hp => by rw [hp] at h; exact h, fun e he => ?_⟩
  rcases hw e he with ⟨key, h1, h2, h3, h4⟩ | h1 | h1
  · exact Or.inl ⟨key, h1, h2, h3, not_trusts_iff.2 h4⟩
  · exact Or.inr (Or.inl h1)
  · exact Or.inr (Or.inr h1)

/-- **C76, client.** Whatever a server sends: the client's side of a key exchange does not panic. It fails only with the key of a stranger, with `UnexpectedEof` if the server has closed the connection before its key or the
session key was complete, with `InvalidData` if the server has sent a package that does not decipher as the next one, or with an error of the transport. If it completes, the session key is the first 32 bytes of
what was deciphered; what follows them in the last package is the first that will be read from the connection. -/
theorem C76_client (A : Aead) (D : DH) (keys : Keys) (ops : List Handshake.Op) (s : Side CPhase) (hr : (clientInit D keys).run (clientPoll A D keys) ops = some s) :
    s.phase ≠ .panicked ∧
    (∀ e, s.phase = .failed e →
      (∃ key, e = .unknownPeer key ∧ Stranger D keys s.got key) ∨
      (e = .io .unexpectedEof ∧ s.closed = true ∧ (s.got.length < 32 ∨ ∃ plains part, Heard A D keys s.got plains part ∧ plains.flatten.length < 32 ∧ NoPackage part)) ∨
      (e = .io .invalidData ∧ Undecipherable A D keys s.got) ∨ ∃ x, e = .io x ∧ TransportError ops x) ∧
    ∀ st, s.phase = .done st → ∃ plains session, Heard A D keys s.got plains s.inbox ∧ plains.dropLast.flatten.length < 32 ∧ session.length = 32 ∧ plains.flatten = session ++ st.read.remaining ∧
      NewSession session { st with read := { st.read with remaining := [] } } := by
  have h := clientRun_why (pre := []) (A := A) (show CState A D keys (TransportError []) false (clientInit D keys).phase (clientInit D keys).got (clientInit D keys).inbox from rfl) hr
  refine ⟨fun hp => by rw [hp] at h; exact h, fun e he => ?_, fun st hd => ?_⟩
  · rw [he] at h
    rcases h with ⟨key, h1, h2, h3, h4⟩ | ⟨h1, h2, h3⟩ | ⟨h1, key, pkgs, plains, pkg, rest, h2, h3, h4, h5⟩ | h1
    · exact Or.inl ⟨key, h1, h2, h3, not_trusts_iff.2 h4⟩
    · refine Or.inr (Or.inl ⟨h1, h2, ?_⟩)
      rcases h3 with h3 | ⟨key, pkgs, plains, part, h3, h4, h5⟩
      · exact Or.inl h3
      · exact Or.inr ⟨plains, part, heard_of_reads h3, h4, incomplete_iff.1 h5⟩
    · refine Or.inr (Or.inr (Or.inl ⟨h1, key, pkgs, plains, pkg.take 4, pkg.drop 4, rest, ?_, h2.2.1, trusts_iff.2 h2.2.2.1, h2.2.2.2, h3, ?_, ?_⟩))
      · rw [List.take_append_drop]; exact h2.1
      · obtain ⟨g1, g2⟩ := complete_iff.1 h4
        rw [bigEndian_iff, List.length_take, List.length_drop]
        omega
      · intro nonce hn
        obtain ⟨nb, g1, rfl⟩ := hn
        have g2 := nonce_spec plains.length
        obtain ⟨nb', g3, g4⟩ := g2
        have : nb = nb' := by
          have e1 := (bigEndian_put64 (x := UInt64.ofNat plains.length) (bs := nb)).1 (by simpa using g1)
          have e2 := (bigEndian_put64 (x := UInt64.ofNat plains.length) (bs := nb')).1 (by simpa using g3)
          rw [e1, e2]
        rw [this, ← g4]
        exact h5
    · exact Or.inr (Or.inr (Or.inr h1))
  · rw [hd] at h
    obtain ⟨key, pkgs, plains, h1, h2, h3, h4, h5⟩ := h
    refine ⟨plains, plains.flatten.take 32, heard_of_reads h1, h3, by rw [List.length_take]; omega, by rw [h4, List.take_append_drop], ?_⟩
    rw [h4]
    refine ⟨rfl, rfl, rfl, rfl, ?_⟩
    rw [h5]
    exact ⟨rfl, rfl, rfl, rfl, rfl, rfl, rfl, rfl⟩

/-- **C76, what the server waits for.** If all that has arrived is handed out and the transport takes what is written, a poll ends the server's side of the exchange, unless the 32 bytes of the client's key
have not arrived yet and the client has not closed the connection. -/
theorem C76_server_waits (A : Aead) (D : DH) (keys : Keys) (fresh : Bytes) (hf : fresh.length = 32) (ops : List Handshake.Op) (s s' : Side SPhase) (k n : Nat)
    (hr : serverInit.run (serverPoll A D keys fresh) ops = some s) (hk : s.inbox.length ≤ k) (hn : 84 ≤ n)
    (hs : s.step (serverPoll A D keys fresh) (.poll k [.ready n, .ready n, .ready n, .ready n]) = some s') :
    ServerEnded s' ∨ (s.closed = false ∧ s.got.length < 32) := by
  have h := serverRun_inv hf (serverInit_inv A D keys fresh) hr
  simp only [Side.step, Option.some.injEq] at hs
  subst hs
  rw [List.take_of_length_le hk]
  rcases serverPoll_waits (closed := s.closed && decide (s.inbox.length ≤ k)) hf hn h with h1 | ⟨h1, h2⟩
  · exact Or.inl h1
  · exact Or.inr ⟨by simpa [hk] using h1, h2⟩

/-- **C76, what the client waits for.** If all that has arrived is handed out and the transport takes what is written, a poll ends the client's side of the exchange, unless the server's key, or the package with
the session key after it, has not arrived completely and the server has not closed the connection, or the server has sent a session key that is too short. -/
theorem C76_client_waits (A : Aead) (D : DH) (keys : Keys) (ops : List Handshake.Op) (s s' : Side CPhase) (k n : Nat)
    (hr : (clientInit D keys).run (clientPoll A D keys) ops = some s) (hk : s.inbox.length ≤ k) (hn : 32 ≤ n)
    (hs : s.step (clientPoll A D keys) (.poll k [.ready n, .ready n]) = some s') :
    ClientEnded s' ∨
    (s.closed = false ∧ (s.got.length < 32 ∨ ∃ plains part, Heard A D keys s.got plains part ∧ plains.flatten.length < 32 ∧ NoPackage part)) ∨
    ∃ plains rest, Heard A D keys s.got plains rest ∧ plains ≠ [] ∧ plains.flatten.length < 32 := by
  have h := clientRun_why (pre := []) (A := A) (show CState A D keys (TransportError []) false (clientInit D keys).phase (clientInit D keys).got (clientInit D keys).inbox from rfl) hr
  have hi := clientRun_inv (A := A) (clientInit_inv D keys) hr
  simp only [Side.step, Option.some.injEq] at hs
  subst hs
  rw [List.take_of_length_le hk]
  rcases clientPoll_waits (closed := s.closed && decide (s.inbox.length ≤ k)) hn h hi with h1 | ⟨h1, h2⟩ | ⟨key, pkgs, plains, rest, h1, h2⟩
  · exact Or.inl h1
  · refine Or.inr (Or.inl ⟨by simpa [hk] using h1, ?_⟩)
    rcases h2 with h2 | ⟨key, pkgs, plains, part, h3, h4, h5⟩
    · exact Or.inl h2
    · exact Or.inr ⟨plains, part, heard_of_reads h3, h4, incomplete_iff.1 h5⟩
  · exact Or.inr (Or.inr ⟨plains, rest, heard_of_reads h1, h2⟩)

/-! Examples: a package under the agreed key with the first or a later number, and what the client makes of it. -/

def exAgreed : Bytes := toyDH.dh exSecretC (toyDH.pub exSecretS)
def exPkg (i : UInt8) (p : Bytes) : Bytes :=
  [0, 0, 0, UInt8.ofNat (16 + p.length)] ++ toyTag exAgreed [0, 0, 0, 0, 0, 0, 0, i, 0, 0, 0, 0] p ++ p
def exClientRun (bs : Bytes) (ops : List Handshake.Op) : Option (Side CPhase) :=
  (clientInit toyDH exClientKeys).run (clientPoll toyAead toyDH exClientKeys) ([.poll 0 [.ready 100, .ready 1], .arrive (toyDH.pub exSecretS ++ bs)] ++ ops)

/-- The server closes within the package with the session key. -/
example : (exClientRun ((exPkg 0 exFresh).take 40) [.close, .poll 100 []]).map (·.phase) = some (.failed (.io .unexpectedEof)) := by decide +kernel
/-- A package with the wrong number. -/
example : (exClientRun (exPkg 1 exFresh) [.poll 100 []]).map (·.phase) = some (.failed (.io .invalidData)) := by decide +kernel
/-- The transport fails. -/
example : ((clientInit toyDH exClientKeys).run (clientPoll toyAead toyDH exClientKeys) [.poll 0 [.ready 5, .ready 0]]).map (·.phase) = some (.failed (.io .writeZero)) := by decide +kernel
/-- The session key comes in two packages; the end of the second is left for the first read. -/
example : (exClientRun (exPkg 0 (exFresh.take 20) ++ exPkg 1 (exFresh.drop 20 ++ [1, 2])) [.poll 100 [], .poll 100 []]).map
    (fun s => match s.phase with | .done st => (decide (st.read.dec.key = exFresh), st.read.remaining) | _ => (false, [])) = some (true, [1, 2]) := by decide +kernel
/-- The server closes early; the server's side. -/
example : (serverInit.run (serverPoll toyAead toyDH exServerKeys exFresh) [.arrive [1, 2, 3], .poll 3 [], .close, .poll 0 []]).map (·.phase) = some (.failed (.io .unexpectedEof)) := by decide +kernel

/-- (A user would expect that a connection attempt ends when the server closes the connection.) If a server has sent a session key that is too short and has closed the connection, the poll in which the
client reads it leaves it waiting, although nothing more can arrive; and it has not asked to be woken, so it waits for ever. -/
theorem C76_violated_short (A : Aead) (D : DH) (keys : Keys) (key plain pkg : Bytes) (hk : key.length = 32) (ht : Trusts D keys key)
    (hp : Package A (D.dh keys.secret key) 0 plain pkg) (hl : plain.length < 32) :
    (∃ s, (clientInit D keys).run (clientPoll A D keys) [.poll 0 [.ready 32, .ready 1], .arrive (key ++ pkg), .close, .poll (32 + pkg.length) []] = some s ∧
      s.closed = true ∧ s.inbox = [] ∧ ¬ ClientEnded s) ∧
    ((CryptStream.new (D.dh keys.secret key)).read.pollRead A true 32 (toChunks pkg)).poll = .pending false := by
  obtain ⟨nonce, c, lb, h1, h2, h3, rfl⟩ := hp
  have hc : complete (lb ++ c) = true := by
    rw [bigEndian_iff] at h3
    rw [complete_iff, List.take_append_of_le_length (by omega), List.take_of_length_le (by omega), List.length_append]
    omega
  have hlb : lb.length = 4 := (bigEndian_iff.1 h3).1
  have hd : A.dec (D.dh keys.secret key) (nonceFromNumber 0) c = some plain := by
    rw [A.dec_iff]
    obtain ⟨nb, g1, rfl⟩ := h1
    obtain ⟨nb', g3, g4⟩ := nonce_spec 0
    have : nb = nb' := by
      have e1 := (bigEndian_put64 (x := UInt64.ofNat 0) (bs := nb)).1 (by simpa using g1)
      have e2 := (bigEndian_put64 (x := UInt64.ofNat 0) (bs := nb')).1 (by simpa using g3)
      rw [e1, e2]
    rw [this, ← g4] at h2
    exact h2
  obtain ⟨cs, g1, g2⟩ := pollPackage_toChunks_done (closed := true) (p := lb ++ c) (acc := []) (y := lb ++ c) (inp := lb ++ c) (rest := []) hc rfl
    (by intro h; have := congrArg List.length h; rw [List.length_append, List.length_nil] at this; omega) (by simp)
  have hdrop : (lb ++ c).drop 4 = c := by rw [List.drop_append_of_le_length (by omega), List.drop_of_length_le (by omega), List.nil_append]
  rw [hdrop] at g1
  have hread : (CryptStream.new (D.dh keys.secret key)).read.pollRead A true 32 (toChunks (lb ++ c)) =
      { poll := .pending false, filled := plain, rs := { dec := { key := D.dh keys.secret key, count := 1 } }, chunks := cs } := by
    simp only [CryptStream.new, ReadStream.pollRead, List.take_nil, List.length_nil, List.drop_nil, Nat.sub_zero, List.nil_append]
    rw [if_pos (by omega)]
    simp only [pollFutRead, g1, Decryptor.decrypt, hd, List.nil_append]
    have hl' : plain.length ≤ 32 := by omega
    rw [if_neg (by omega), List.take_of_length_le hl', List.drop_of_length_le hl']
    rfl
  have hlast : clientPoll A D keys (.recvPub []) true (key ++ (lb ++ c)) [] =
      { phase := .recvSecret { (CryptStream.new (D.dh keys.secret key)) with read := { dec := { key := D.dh keys.secret key, count := 1 } } } plain } := by
    have hpub : pollPub true [] (key ++ (lb ++ c)) = .got key (lb ++ c) := by
      unfold pollPub
      rw [if_pos (by simp; omega)]
      simp only [List.nil_append, List.length_nil, Nat.sub_zero]
      rw [← hk, List.take_left', List.drop_left'] <;> rfl
    simp only [clientPoll, cRecvPub, hpub, trusts_iff.1 ht, cRecvSecret, List.length_nil, Nat.sub_zero, hread, List.nil_append]
    rw [show (cs.map Chunk.bytes).flatten = [] from g2]
    rfl
  refine ⟨⟨{ phase := .recvSecret { (CryptStream.new (D.dh keys.secret key)) with read := { dec := { key := D.dh keys.secret key, count := 1 } } } plain, closed := true, sent := D.pub keys.secret, got := key ++ (lb ++ c) }, ?_, rfl, rfl, ?_⟩, by rw [hread]⟩
  · have hfirst : clientPoll A D keys (.sendPub (D.pub keys.secret)) false [] [.ready 32, .ready 1] = { phase := .recvPub [], sent := D.pub keys.secret } := by
      simp only [clientPoll, pollWriteAll_big (pub_ne D _) (Nat.le_of_eq (D.pub_len _)), cFlushPub, cRecvPub, pollPub]
      rfl
    simp only [Side.run, Side.step, clientInit, Option.bind_some, Bool.false_and, List.take_nil, hfirst, List.drop_nil, List.append_nil, List.nil_append,
      Bool.false_eq_true, if_false, Bool.true_and]
    have hl1 : (key ++ (lb ++ c)).length ≤ 32 + (lb ++ c).length := by rw [List.length_append]; omega
    rw [List.take_of_length_le hl1, List.drop_of_length_le hl1, decide_eq_true hl1, hlast]
    simp only [List.append_nil]
  · rintro (⟨_, h⟩ | ⟨_, h⟩) <;> cases h

example : Trusts toyDH exClientKeys (toyDH.pub exSecretS) ∧ (toyDH.pub exSecretS).length = 32 ∧ Package toyAead exAgreed 0 [1] (exPkg 0 [1]) := by
  refine ⟨Or.inr (by decide), by decide +kernel, _, _, [0, 0, 0, 17], nonce_spec 0, rfl, ?_, ?_⟩
  · rw [bigEndian_iff]; decide +kernel
  · decide +kernel

end Bromine.Props
