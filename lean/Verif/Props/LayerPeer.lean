import Verif.Lemmas.LayerPeerSetup
import Verif.Props.LayerExchange
/-
C81: setting up encrypted layers in each other with an arbitrary peer.
-/
namespace Bromine.Props
open Bromine CryptIO Layers Spec
open Bromine.Handshake (DH Keys toyDH)

section
variable (A : Aead) (D : DH) (xs : List Exchange) (sc : Script) (ps : List (List IoAns))

theorem client_any (hl : 68 + 20 * xs.length < 2 ^ 32) :
    (∃ b s, clientRuns A D xs sc ps = .pending b s ∧ CliPeerSent A D (scriptBytes sc) xs ((client A D xs).sock s).wire) ∨
    (∃ w r, clientRuns A D xs sc ps = .done w r ∧ CliPeerFin A D sc.closed (scriptBytes sc) xs w r) ∨
    ∃ e k, clientRuns A D xs sc ps = .failed e k ∧ ((∃ as ∈ ps, ∃ x, e = .io x ∧ Fails as x) ∨ CliPeerErr A D sc.closed (scriptBytes sc) xs e) ∧ CliPeerSent A D (scriptBytes sc) xs k.wire := by
  obtain ⟨G⟩ := cli_safely A D sc.closed (scriptBytes sc) xs hl
  rcases G.run ps (b := true) (G.init sc rfl rfl) with ⟨b, s, h1, h2⟩ | h | h
  · exact .inl ⟨b, s, h1, G.sends h2⟩
  · exact .inr (.inl h)
  · exact .inr (.inr h)

theorem server_any (hs : ExchangeSized xs) :
    (∃ b s, serverRuns A D xs sc ps = .pending b s ∧ SrvPeerSent A D (scriptBytes sc) xs ((server A D xs).sock s).wire) ∨
    (∃ w r, serverRuns A D xs sc ps = .done w r ∧ SrvPeerFin A D sc.closed (scriptBytes sc) xs w r) ∨
    ∃ e k, serverRuns A D xs sc ps = .failed e k ∧ ((∃ as ∈ ps, ∃ x, e = .io x ∧ Fails as x) ∨ SrvPeerErr A D sc.closed (scriptBytes sc) xs e) ∧ SrvPeerSent A D (scriptBytes sc) xs k.wire := by
  obtain ⟨G⟩ := srv_safely A D sc.closed (scriptBytes sc) xs hs
  rcases G.run ps (b := true) (G.init sc rfl rfl) with ⟨b, s, h1, h2⟩ | h | h
  · exact .inl ⟨b, s, h1, G.sends h2⟩
  · exact .inr (.inl h)
  · exact .inr (.inr h)

/-! ### No other outcome -/

/-- **C81, the client's outcome.** Whatever arrives, whatever the socket answers and however often it is polled, a client that sets up any number of encrypted layers in each other does not panic. It fails only with an error of a write to the
socket, with `WriteZero` if the socket takes nothing, with `UnexpectedEof` if the connection is closed, with `InvalidData` if in some layer a package has arrived that does not decipher, or with `UnknownPeer` and a key that has arrived in
some layer and is not trusted there. -/
theorem C81_client_outcome (hl : 68 + 20 * xs.length < 2 ^ 32) :
    (∀ k, clientRuns A D xs sc ps ≠ .panicked k) ∧ ∀ e k, clientRuns A D xs sc ps = .failed e k →
      (∃ as ∈ ps, ∃ x, e = .io x ∧ (.fail x ∈ as ∨ (x = .writeZero ∧ .ready 0 ∈ as))) ∨
      (e = .io .unexpectedEof ∧ sc.closed = true) ∨ (e = .io .invalidData ∧ ClientUndecipherable A D (scriptBytes sc) xs) ∨
      ∃ key, e = .unknownPeer key ∧ ClientStranger A D (scriptBytes sc) xs key := by
  rcases client_any A D xs sc ps hl with ⟨b, s, h, -⟩ | ⟨w, r, h, -⟩ | ⟨e, k, h, h1, -⟩
  · exact ⟨fun k => by rw [h]; simp, fun e k => by rw [h]; simp⟩
  · exact ⟨fun k => by rw [h]; simp, fun e k => by rw [h]; simp⟩
  · refine ⟨fun k => by rw [h]; simp, fun e' k' h' => ?_⟩
    rw [h] at h'
    cases h'
    exact h1

/-- C81, the server's outcome: the same; a package that does not decipher can only arrive in a layer that is set up already. -/
theorem C81_server_outcome (hs : ExchangeSized xs) :
    (∀ k, serverRuns A D xs sc ps ≠ .panicked k) ∧ ∀ e k, serverRuns A D xs sc ps = .failed e k →
      (∃ as ∈ ps, ∃ x, e = .io x ∧ (.fail x ∈ as ∨ (x = .writeZero ∧ .ready 0 ∈ as))) ∨
      (e = .io .unexpectedEof ∧ sc.closed = true) ∨ (e = .io .invalidData ∧ ServerUndecipherable A D (scriptBytes sc) xs) ∨
      ∃ key, e = .unknownPeer key ∧ ServerStranger A D (scriptBytes sc) xs key := by
  rcases server_any A D xs sc ps hs with ⟨b, s, h, -⟩ | ⟨w, r, h, -⟩ | ⟨e, k, h, h1, -⟩
  · exact ⟨fun k => by rw [h]; simp, fun e k => by rw [h]; simp⟩
  · exact ⟨fun k => by rw [h]; simp, fun e k => by rw [h]; simp⟩
  · refine ⟨fun k => by rw [h]; simp, fun e' k' h' => ?_⟩
    rw [h] at h'
    cases h'
    exact h1

/-! ### What is sent -/

/-- **C81, what the client sends.** At any time, all that the client has sent is its public keys, from the innermost layer up to some layer: all layers inside that layer are set up, with peers that it trusts, and each key has gone through them
with the keys of their sessions. For the layers around it nothing has been sent. -/
theorem C81_client_sends (hl : 68 + 20 * xs.length < 2 ^ 32) (hx : xs ≠ []) :
    ∃ ys x zs sessions heard out, xs = ys ++ x :: zs ∧ ClientHears A D (scriptBytes sc) zs sessions heard ∧ ClientSends A D (x :: withSessions zs sessions) out ∧ clientSent A D xs sc ps <+: out := by
  have hc : CliPeerSent A D (scriptBytes sc) xs (clientSent A D xs sc ps) := by
    unfold clientSent
    rcases client_any A D xs sc ps hl with ⟨b, s, h, h1⟩ | ⟨w, r, h, h1⟩ | ⟨e, k, h, -, h1⟩
    · rw [h]; exact h1
    · rw [h]
      obtain ⟨ss, S, V, I, -, h2, h3⟩ := h1
      obtain ⟨q, hq, -⟩ := I.hears h2
      cases xs with
      | nil => exact absurd rfl hx
      | cons x xs =>
        cases ss with
        | nil => exact hq.elim
        | cons s ss =>
          obtain ⟨key, came, rest, -, -, -, -, -, -, hq, -⟩ := hq
          exact .inr ⟨[], x, xs, ss, _, _, rfl, hq, h3, List.prefix_refl _⟩
    · rw [h]; exact h1
  rcases hc with ⟨h, -⟩ | h
  · exact absurd h hx
  · exact h

/-- **C81, what the server sends.** At any time, all that the server has sent is its public keys and keys of sessions, from the innermost layer up to some layer, and in all these layers it has heard a key that it trusts; the key of each
session has been encrypted with the secret agreed with that peer, and has gone through the sessions of the layers inside. -/
theorem C81_server_sends (hs : ExchangeSized xs) :
    ∃ ys zs keys heard out, xs = ys ++ zs ∧ ServerHears A D (scriptBytes sc) zs keys heard ∧ ServerAnswers A D zs keys out ∧ serverSent A D xs sc ps <+: out := by
  unfold serverSent
  rcases server_any A D xs sc ps hs with ⟨b, s, h, h1⟩ | ⟨w, r, h, h1⟩ | ⟨e, k, h, -, h1⟩
  · rw [h]; exact h1
  · rw [h]
    obtain ⟨ks, S, V, I, -, h2, h3⟩ := h1
    obtain ⟨q, hq, -⟩ := I.hears h2
    exact ⟨[], xs, ks, q, _, rfl, hq, h3, List.prefix_refl _⟩
  · rw [h]; exact h1

/-! ### What a connection is -/

/-- **C81, the client's connection.** If the set-up completes, then in every layer the client has heard a key that it trusts, and then packages under the secret agreed with it, with a key of 32 bytes, which is that of the session; the client
writes and reads with these keys. What the peer has put into the last package after it is the first that will be read. -/
theorem C81_client_done (hl : 68 + 20 * xs.length < 2 ^ 32) {w : WState xs.length} {r : RState xs.length} (hd : clientRuns A D xs sc ps = .done w r) :
    ∃ sessions heard, ClientHears A D (scriptBytes sc) xs sessions heard ∧ ClientSends A D (withSessions xs sessions) (clientSent A D xs sc ps) ∧
      WriteHalves xs.length (clientLayers (withSessions xs sessions)) w ∧ ReadsWith heard xs.length sessions r := by
  unfold clientSent
  rcases client_any A D xs sc ps hl with ⟨b, s, h, -⟩ | ⟨w', r', h, ss, S, V, I, h1, h2, h3⟩ | ⟨e, k, h, -⟩
  · rw [h] at hd; cases hd
  · rw [h] at hd
    cases hd
    obtain ⟨q, hq, hr⟩ := I.hears h2
    have hw := I.halves h1
    rw [after_zero] at hw
    rw [h]
    exact ⟨ss, q, hq, h3, hw, hr⟩
  · rw [h] at hd; cases hd

/-- **C81, the server's connection.** The same for the server, with the keys that it made. -/
theorem C81_server_done (hs : ExchangeSized xs) {w : WState xs.length} {r : RState xs.length} (hd : serverRuns A D xs sc ps = .done w r) :
    ∃ keys heard, ServerHears A D (scriptBytes sc) xs keys heard ∧ ServerAnswers A D xs keys (serverSent A D xs sc ps) ∧
      WriteHalves xs.length (serverLayers xs) w ∧ ReadsWith heard xs.length (xs.map Exchange.fresh) r := by
  unfold serverSent
  rcases server_any A D xs sc ps hs with ⟨b, s, h, -⟩ | ⟨w', r', h, ks, S, V, I, h1, h2, h3⟩ | ⟨e, k, h, -⟩
  · rw [h] at hd; cases hd
  · rw [h] at hd
    cases hd
    obtain ⟨q, hq, hr⟩ := I.hears h2
    have hw := I.halves h1
    rw [after_zero] at hw
    rw [h]
    exact ⟨ks, q, hq, h3, hw, hr⟩
  · rw [h] at hd; cases hd

/-- C81: so, whoever the peer is, a client with a connection has heard a key that it trusts in every layer. -/
theorem C81_client_trusts (hl : 68 + 20 * xs.length < 2 ^ 32) (hd : (clientRuns A D xs sc ps).isDone = true) : ∀ ys x zs, xs = ys ++ x :: zs → ClientFriend A D (scriptBytes sc) x zs := by
  have hrec : ∀ (xs : List Exchange) ss q, ClientHears A D (scriptBytes sc) xs ss q → ∀ ys x zs, xs = ys ++ x :: zs → ClientFriend A D (scriptBytes sc) x zs := by
    intro xs
    induction xs with
    | nil => intro ss q _ ys x zs hx; cases ys <;> cases hx
    | cons y xs ih =>
      intro ss q h ys x zs hx
      cases ss with
      | nil => exact h.elim
      | cons s ss =>
        obtain ⟨key, came, rest, -, -, -, -, -, -, h1, h2, h3, -⟩ := h
        cases ys with
        | nil =>
          cases hx
          rw [List.append_assoc] at h1
          exact ⟨_, _, _, h1, h2, h3⟩
        | cons _ ys =>
          injection hx with _ hx
          exact ih _ _ h1 ys x zs hx
  cases hx : clientRuns A D xs sc ps with
  | done w r => obtain ⟨ss, q, h, -⟩ := C81_client_done A D xs sc ps hl hx; exact hrec _ _ _ h
  | pending b s => rw [hx] at hd; cases hd
  | failed e k => rw [hx] at hd; cases hd
  | panicked k => rw [hx] at hd; cases hd

/-- C81, the same for a server. -/
theorem C81_server_trusts (hs : ExchangeSized xs) (hd : (serverRuns A D xs sc ps).isDone = true) : ∀ ys x zs, xs = ys ++ x :: zs → ServerFriend A D (scriptBytes sc) x zs := by
  have hrec : ∀ (xs : List Exchange) ks q, ServerHears A D (scriptBytes sc) xs ks q → ∀ ys x zs, xs = ys ++ x :: zs → ServerFriend A D (scriptBytes sc) x zs := by
    intro xs
    induction xs with
    | nil => intro ss q _ ys x zs hx; cases ys <;> cases hx
    | cons y xs ih =>
      intro ss q h ys x zs hx
      cases ss with
      | nil => exact h.elim
      | cons s ss =>
        obtain ⟨came, rest, -, -, -, -, h1, h2, h3, -⟩ := h
        cases ys with
        | nil =>
          cases hx
          rw [List.append_assoc] at h1
          exact ⟨_, _, _, h1, h2, h3⟩
        | cons _ ys =>
          injection hx with _ hx
          exact ih _ _ h1 ys x zs hx
  cases hx : serverRuns A D xs sc ps with
  | done w r => obtain ⟨ss, q, h, -⟩ := C81_server_done A D xs sc ps hs hx; exact hrec _ _ _ h
  | pending b s => rw [hx] at hd; cases hd
  | failed e k => rw [hx] at hd; cases hd
  | panicked k => rw [hx] at hd; cases hd

end

/-! ### Examples: two layers, and a peer that is not the other side -/

def exErr {σ τ ρ : Type} : Setup σ τ ρ → Option Error
  | .failed e _ => some e
  | _ => none

/-- One byte of the second message through the inner layer is changed. -/
def exForged : Bytes := exOutS.take 100 ++ [(exOutS.getD 100 0) + 1] ++ exOutS.drop 101

/-- The client has set up the inner layer, and then gets a package that does not decipher. -/
example : exErr (clientRuns toyAead toyDH exLayers (exScript exForged 10) (exPolls 9)) = some (.io .invalidData) ∧ exErr (clientRuns toyAead toyDH exLayers exToClient (exPolls 9)) = none := by decide +kernel

/-- The server too. -/
example : exErr (serverRuns toyAead toyDH exLayers (exScript (exOutC.take 50 ++ [77] ++ exOutC.drop 51) 10) (exPolls 9)) = some (.io .invalidData) := by decide +kernel

/-- The connection is closed within the second layer. -/
example : exErr (clientRuns toyAead toyDH exLayers { exScript (exOutS.take 120) 10 with closed := true } (exPolls 9)) = some (.io .unexpectedEof) := by decide +kernel

/-- In the outer layer somebody else answers. -/
example : exErr (clientRuns toyAead toyDH exLayers (exScript (srvStream toyAead toyDH [{ exLayer 5 with server := { secret := [7], knownPeers := [] } }, exLayer 9]) 10) (exPolls 9)) = some (.unknownPeer (toyDH.pub [7])) := by decide +kernel

/-- A peer that has put something after the key of the session: it is what the client will read first. The inner layer has the key of the peer's choice, the outer layer is set up through it. -/
def exAfter : Bytes :=
  let S1 : Layer := { key := List.replicate 32 9 }
  let K0 : Layer := { key := toyDH.dh [9, 1] (toyDH.pub [9, 2]) }
  let K1 : Layer := { key := toyDH.dh [5, 1] (toyDH.pub [5, 2]) }
  toyDH.pub [9, 2] ++ Layers.pkg toyAead K0 0 (List.replicate 32 9) ++ Layers.pkg toyAead S1 0 (toyDH.pub [5, 2]) ++ Layers.pkg toyAead S1 1 (Layers.pkg toyAead K1 0 (List.replicate 32 5 ++ [1, 2, 3]))

example : (match clientRuns toyAead toyDH exLayers (exScript exAfter 10) (exPolls 9) with | .done _ (rs, _) => some (rs.remaining, decide (rs.dec.key = List.replicate 32 5)) | _ => none) = some ([1, 2, 3], true) := by decide +kernel

end Bromine.Props
