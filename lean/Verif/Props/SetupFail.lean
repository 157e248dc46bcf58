import Verif.Spec.SetupFail
import Verif.Lemmas.SetupFail
import Verif.Props.LayerPeer
import Verif.Props.ReadFail
/-
C91: setting up encrypted layers over a transport that returns an error from a read.
-/
namespace Bromine.Props
open Bromine Bromine.Spec Bromine.CryptIO Bromine.Layers
open Bromine.Handshake (DH Keys toyDH)

section
variable {A : Aead} {e : IoErr} {after : Script} {n : Nat}

theorem readAlike_of (A : Aead) {e : IoErr} {after : Script} {n : Nat} {r0 r1 : RState n} {r2 : FRState n} (h : (layersTrio A e after n).rel r0 r1 r2) (checks : Bool) (fuel : Nat) :
    ReadAlike e (readLoop (source (layersR A n)) checks fuel r0) (readLoop (source (layersR A n)) checks fuel r1) (readLoop (source (layersF A n)) checks fuel r2) := by
  rcases (layersTrio A e after n).loop checks fuel h with ⟨h1, h2⟩ | ⟨es, h1, h2, h3⟩
  · exact ⟨(congrArg Prod.fst h1).trans (congrArg Prod.fst h2).symm, congrArg Prod.fst h1, .inr ⟨(congrArg Prod.snd h1).trans (congrArg Prod.snd h2).symm, congrArg Prod.snd h1⟩⟩
  · exact ⟨(congrArg Prod.fst h3).trans (congrArg Prod.fst h1).symm, (congrArg Prod.fst h3).trans (congrArg Prod.fst h2).symm, .inl ⟨congrArg Prod.snd h1, congrArg Prod.snd h2, congrArg Prod.snd h3⟩⟩

theorem alike_of {σ0 σ2 τ ρ0 ρ2 : Type} {st : σ0 → σ0 → σ2 → Prop} {dead : σ0 → Prop} {sock : σ0 → Socket} {rel alike : ρ0 → ρ0 → ρ2 → Prop} {e : IoErr} {x0 x1 : Setup σ0 τ ρ0} {x2 : Setup σ2 τ ρ2}
    (h : SetupRel st dead sock rel e x0 x1 x2) (ha : ∀ {r0 r1 r2}, rel r0 r1 r2 → alike r0 r1 r2) : SetUpAlike e alike x0 x1 x2 := by
  cases h with
  | pending _ => exact .pending _ _ _ _
  | done g => exact .done _ _ _ _ (ha g)
  | failed => exact .failed _ _
  | panicked => exact .panicked _
  | ended _ _ => exact .ended _ _

theorem sent_of {σ0 σ2 τ ρ0 ρ2 : Type} {st : σ0 → σ0 → σ2 → Prop} {dead : σ0 → Prop} {sock : σ0 → Socket} {sock2 : σ2 → Socket} {base : τ → Socket} {rel : ρ0 → ρ0 → ρ2 → Prop} {e : IoErr} {x0 x1 : Setup σ0 τ ρ0}
    {x2 : Setup σ2 τ ρ2} (h : SetupRel st dead sock rel e x0 x1 x2) (hs : ∀ {s0 s1 s2}, st s0 s1 s2 → sock s1 = sock s0 ∧ sock2 s2 = sock s0) :
    x2.sent sock2 base = x0.sent sock base ∧ x2.sent sock2 base = x1.sent sock base := by
  cases h with
  | pending g => simp only [Setup.sent, (hs g).1, (hs g).2, and_self]
  | done g => exact ⟨rfl, rfl⟩
  | failed => exact ⟨rfl, rfl⟩
  | panicked => exact ⟨rfl, rfl⟩
  | ended _ g => exact ⟨g.symm, rfl⟩

end

section
variable (A : Aead) (D : DH) (xs : List Exchange) (f : Failing) (ps : List (List IoAns))

/-- **C91, an error is as an end, the client.** Any number of layers, any peer, and whatever arrives: a client whose transport fails has sent what it would have sent over one that is closed there, or silent. After each poll, it is where these would be:
pending, or done, with the same half to write, and reading alike; or failed with the same error. Only where the one over the silent transport waits for more, and so the one over the closed transport has failed with `UnexpectedEof`, it has
failed with the error of the transport. -/
theorem C91_client :
    SetUpAlike f.err (fun r0 r1 r2 => ∀ checks fuel, ReadAlike f.err (readLoop (source (layersR A xs.length)) checks fuel r0) (readLoop (source (layersR A xs.length)) checks fuel r1) (readLoop (source (layersF A xs.length)) checks fuel r2))
      (clientRuns A D xs { chunks := f.chunks, closed := false } ps) (clientRuns A D xs { chunks := f.chunks, closed := true } ps) (clientRunsF A D xs f ps) ∧
    clientSentF A D xs f ps = clientSent A D xs { chunks := f.chunks, closed := false } ps ∧ clientSentF A D xs f ps = clientSent A D xs { chunks := f.chunks, closed := true } ps :=
  ⟨alike_of (client_rel A D xs f ps) fun h checks fuel => readAlike_of A h checks fuel, sent_of (client_rel A D xs f ps) (clientTriplet A D f.err f.after f.chunks xs).sock⟩

/-- **C91, an error is as an end, the server.** -/
theorem C91_server :
    SetUpAlike f.err (fun r0 r1 r2 => ∀ checks fuel, ReadAlike f.err (readLoop (source (layersR A xs.length)) checks fuel r0) (readLoop (source (layersR A xs.length)) checks fuel r1) (readLoop (source (layersF A xs.length)) checks fuel r2))
      (serverRuns A D xs { chunks := f.chunks, closed := false } ps) (serverRuns A D xs { chunks := f.chunks, closed := true } ps) (serverRunsF A D xs f ps) ∧
    serverSentF A D xs f ps = serverSent A D xs { chunks := f.chunks, closed := false } ps ∧ serverSentF A D xs f ps = serverSent A D xs { chunks := f.chunks, closed := true } ps :=
  ⟨alike_of (server_rel A D xs f ps) fun h checks fuel => readAlike_of A h checks fuel, sent_of (server_rel A D xs f ps) (serverTriplet A D f.err f.after f.chunks xs).sock⟩

/-- **C91, the client's outcome.** Whatever arrives before the transport fails: the client does not panic, and it fails only with an error of a write to the socket, with `WriteZero` if the socket takes nothing, with the error of the
transport, with `InvalidData` if in some layer a package has arrived that does not decipher, or with `UnknownPeer` and a key that has arrived in some layer and is not trusted there. So `UnexpectedEof` is not reported in place of the error. -/
theorem C91_client_outcome (hl : 68 + 20 * xs.length < 2 ^ 32) :
    (∀ k, clientRunsF A D xs f ps ≠ .panicked k) ∧ ∀ e k, clientRunsF A D xs f ps = .failed e k →
      (∃ as ∈ ps, ∃ x, e = .io x ∧ (.fail x ∈ as ∨ (x = .writeZero ∧ .ready 0 ∈ as))) ∨
      e = .io f.err ∨ (e = .io .invalidData ∧ ClientUndecipherable A D (f.chunks.map Chunk.bytes).flatten xs) ∨
      ∃ key, e = .unknownPeer key ∧ ClientStranger A D (f.chunks.map Chunk.bytes).flatten xs key := by
  obtain ⟨h1, h2⟩ := C81_client_outcome A D xs { chunks := f.chunks, closed := false } ps hl
  have h := (C91_client A D xs f ps).1
  generalize clientRuns A D xs { chunks := f.chunks, closed := false } ps = x0 at h h1 h2
  generalize clientRuns A D xs { chunks := f.chunks, closed := true } ps = x1 at h
  generalize clientRunsF A D xs f ps = x2 at h
  cases h with
  | pending => exact ⟨(fun _ h => by cases h), (fun _ _ h => by cases h)⟩
  | done => exact ⟨(fun _ h => by cases h), (fun _ _ h => by cases h)⟩
  | failed x k =>
    refine ⟨(fun _ h => by cases h), fun _ _ h => ?_⟩
    cases h
    rcases h2 _ _ rfl with g | ⟨-, g⟩ | g | g
    · exact .inl g
    · cases g
    · exact .inr (.inr (.inl g))
    · exact .inr (.inr (.inr g))
  | panicked k => exact absurd rfl (h1 k)
  | ended => exact ⟨(fun _ h => by cases h), (fun _ _ h => by cases h; exact .inr (.inl rfl))⟩

/-- C91, the server's outcome: the same. -/
theorem C91_server_outcome (hs : ExchangeSized xs) :
    (∀ k, serverRunsF A D xs f ps ≠ .panicked k) ∧ ∀ e k, serverRunsF A D xs f ps = .failed e k →
      (∃ as ∈ ps, ∃ x, e = .io x ∧ (.fail x ∈ as ∨ (x = .writeZero ∧ .ready 0 ∈ as))) ∨
      e = .io f.err ∨ (e = .io .invalidData ∧ ServerUndecipherable A D (f.chunks.map Chunk.bytes).flatten xs) ∨
      ∃ key, e = .unknownPeer key ∧ ServerStranger A D (f.chunks.map Chunk.bytes).flatten xs key := by
  obtain ⟨h1, h2⟩ := C81_server_outcome A D xs { chunks := f.chunks, closed := false } ps hs
  have h := (C91_server A D xs f ps).1
  generalize serverRuns A D xs { chunks := f.chunks, closed := false } ps = x0 at h h1 h2
  generalize serverRuns A D xs { chunks := f.chunks, closed := true } ps = x1 at h
  generalize serverRunsF A D xs f ps = x2 at h
  cases h with
  | pending => exact ⟨(fun _ h => by cases h), (fun _ _ h => by cases h)⟩
  | done => exact ⟨(fun _ h => by cases h), (fun _ _ h => by cases h)⟩
  | failed x k =>
    refine ⟨(fun _ h => by cases h), fun _ _ h => ?_⟩
    cases h
    rcases h2 _ _ rfl with g | ⟨-, g⟩ | g | g
    · exact .inl g
    · cases g
    · exact .inr (.inr (.inl g))
    · exact .inr (.inr (.inr g))
  | panicked k => exact absurd rfl (h1 k)
  | ended => exact ⟨(fun _ h => by cases h), (fun _ _ h => by cases h; exact .inr (.inl rfl))⟩

/-- **C91, a late error, the client.** If the transport fails only after all that the server sends for the set-up has arrived, the client that trusts the server is done, as in C80. -/
theorem C91_client_completes (hs : ExchangeSized xs) (ht : ClientAdmits D xs) {outC outS : Bytes} (hc : ClientSends A D xs outC) (ho : ServerSends A D xs outS) (hin : outS <+: (f.chunks.map Chunk.bytes).flatten)
    (hw : ∀ as ∈ ps, SocketWorks as) (hn : outC.length + f.chunks.length + xs.length < (ps.filter takesSome).length) : ∃ w r, clientRunsF A D xs f ps = .done w r := by
  obtain ⟨w, r, h0⟩ := C80_client_completes A D xs hs ht { chunks := f.chunks, closed := false } ps hc ho hin hw hn
  have h := (C91_client A D xs f ps).1
  rw [h0] at h
  generalize clientRuns A D xs { chunks := f.chunks, closed := true } ps = x1 at h
  generalize clientRunsF A D xs f ps = x2 at h
  cases h with
  | done _ _ _ r2 => exact ⟨w, r2, rfl⟩

/-- C91, a late error, the server. -/
theorem C91_server_completes (hs : ExchangeSized xs) (ht : ServerAdmits D xs) {outC outS : Bytes} (hc : ClientSends A D xs outC) (ho : ServerSends A D xs outS) (hin : outC <+: (f.chunks.map Chunk.bytes).flatten)
    (hw : ∀ as ∈ ps, SocketWorks as) (hn : outS.length + f.chunks.length + 2 * xs.length < (ps.filter takesSome).length) : ∃ w r, serverRunsF A D xs f ps = .done w r := by
  obtain ⟨w, r, h0⟩ := C80_server_completes A D xs hs ht { chunks := f.chunks, closed := false } ps hc ho hin hw hn
  have h := (C91_server A D xs f ps).1
  rw [h0] at h
  generalize serverRuns A D xs { chunks := f.chunks, closed := true } ps = x1 at h
  generalize serverRunsF A D xs f ps = x2 at h
  cases h with
  | done _ _ _ r2 => exact ⟨w, r2, rfl⟩

/-- **C91, an early error, the client.** If the transport fails before all that the server sends has arrived, the client does not wait for ever: it fails with that error, or with `UnknownPeer` if it does not trust the server in some layer. -/
theorem C91_client_reports (hs : ExchangeSized xs) {outC outS : Bytes} (hc : ClientSends A D xs outC) (ho : ServerSends A D xs outS) (hin : (f.chunks.map Chunk.bytes).flatten <+: outS) (hne : (f.chunks.map Chunk.bytes).flatten ≠ outS)
    (hw : ∀ as ∈ ps, SocketWorks as) (hn : outC.length + f.chunks.length + xs.length < (ps.filter takesSome).length) :
    ∃ e k, clientRunsF A D xs f ps = .failed e k ∧ (e = .io f.err ∨ ∃ x ∈ xs, e = .unknownPeer (D.pub x.server.secret) ∧ ¬ Trusts D x.client (D.pub x.server.secret)) := by
  obtain ⟨e, k, h0, he⟩ := C80_client_ends A D xs hs { chunks := f.chunks, closed := true } rfl ps hc ho hin hne hw hn
  have h1 := (C81_client_outcome A D xs { chunks := f.chunks, closed := false } ps hs.2).2
  have h := (C91_client A D xs f ps).1
  rw [h0] at h
  generalize clientRuns A D xs { chunks := f.chunks, closed := false } ps = x1 at h h1
  generalize clientRunsF A D xs f ps = x2 at h
  cases h with
  | ended => exact ⟨_, _, rfl, .inl rfl⟩
  | failed =>
    refine ⟨_, _, rfl, ?_⟩
    rcases he with rfl | he
    · rcases h1 _ _ rfl with ⟨as, g1, er, g2, g3⟩ | ⟨-, g⟩ | ⟨g, -⟩ | ⟨_, g, -⟩
      · exact absurd g3 ((hw as g1).ok er)
      · cases g
      · cases g
      · cases g
    · exact .inr he

/-- C91, an early error, the server. -/
theorem C91_server_reports (hs : ExchangeSized xs) {outC outS : Bytes} (hc : ClientSends A D xs outC) (ho : ServerSends A D xs outS) (hin : (f.chunks.map Chunk.bytes).flatten <+: outC) (hne : (f.chunks.map Chunk.bytes).flatten ≠ outC)
    (hw : ∀ as ∈ ps, SocketWorks as) (hn : outS.length + f.chunks.length + 2 * xs.length < (ps.filter takesSome).length) :
    ∃ e k, serverRunsF A D xs f ps = .failed e k ∧ (e = .io f.err ∨ ∃ x ∈ xs, e = .unknownPeer (D.pub x.client.secret) ∧ ¬ Trusts D x.server (D.pub x.client.secret)) := by
  obtain ⟨e, k, h0, he⟩ := C80_server_ends A D xs hs { chunks := f.chunks, closed := true } rfl ps hc ho hin hne hw hn
  have h1 := (C81_server_outcome A D xs { chunks := f.chunks, closed := false } ps hs).2
  have h := (C91_server A D xs f ps).1
  rw [h0] at h
  generalize serverRuns A D xs { chunks := f.chunks, closed := false } ps = x1 at h h1
  generalize serverRunsF A D xs f ps = x2 at h
  cases h with
  | ended => exact ⟨_, _, rfl, .inl rfl⟩
  | failed =>
    refine ⟨_, _, rfl, ?_⟩
    rcases he with rfl | he
    · rcases h1 _ _ rfl with ⟨as, g1, er, g2, g3⟩ | ⟨-, g⟩ | ⟨g, -⟩ | ⟨_, g, -⟩
      · exact absurd g3 ((hw as g1).ok er)
      · cases g
      · cases g
      · cases g
    · exact .inr he

/-- **C91, trust.** Whenever the transport fails: a client that has a connection has heard a key that it trusts in every layer. -/
theorem C91_client_trusts (hl : 68 + 20 * xs.length < 2 ^ 32) (hd : (clientRunsF A D xs f ps).isDone = true) : ∀ ys x zs, xs = ys ++ x :: zs → ClientFriend A D (f.chunks.map Chunk.bytes).flatten x zs := by
  refine C81_client_trusts A D xs { chunks := f.chunks, closed := false } ps hl ?_
  have h := (C91_client A D xs f ps).1
  generalize clientRuns A D xs { chunks := f.chunks, closed := false } ps = x0 at h
  generalize clientRuns A D xs { chunks := f.chunks, closed := true } ps = x1 at h
  generalize clientRunsF A D xs f ps = x2 at h hd
  cases h <;> first | rfl | cases hd

/-- C91, trust, the server. -/
theorem C91_server_trusts (hs : ExchangeSized xs) (hd : (serverRunsF A D xs f ps).isDone = true) : ∀ ys x zs, xs = ys ++ x :: zs → ServerFriend A D (f.chunks.map Chunk.bytes).flatten x zs := by
  refine C81_server_trusts A D xs { chunks := f.chunks, closed := false } ps hs ?_
  have h := (C91_server A D xs f ps).1
  generalize serverRuns A D xs { chunks := f.chunks, closed := false } ps = x0 at h
  generalize serverRuns A D xs { chunks := f.chunks, closed := true } ps = x1 at h
  generalize serverRunsF A D xs f ps = x2 at h hd
  cases h <;> first | rfl | cases hd

end

/-! ### Cases -/

/-- Two layers, and the transport of the client fails in the package with the key of the inner one; and in the middle of the outer exchange; and after all has arrived. -/
def exFails (bs : Bytes) (cut : Nat) : Failing := { chunks := (exScript bs cut).chunks, err := .other, after := { chunks := [.data 1 []], closed := true } }

example : exErr (clientRunsF toyAead toyDH exLayers (exFails (exOutS.take 60) 10) (exPolls 9)) = some (.io .other) ∧ exErr (clientRunsF toyAead toyDH exLayers (exFails (exOutS.take 150) 10) (exPolls 9)) = some (.io .other) ∧
    (clientRunsF toyAead toyDH exLayers (exFails exOutS 10) (exPolls 9)).isDone = true ∧ (clientSentF toyAead toyDH exLayers (exFails (exOutS.take 60) 10) (exPolls 9)).length = 32 ∧
    (exOutS.take 60 <+: exOutS ∧ exOutS.take 60 ≠ exOutS) := by decide +kernel

example : exErr (serverRunsF toyAead toyDH exLayers (exFails (exOutC.take 20) 10) (exPolls 9)) = some (.io .other) ∧ (serverRunsF toyAead toyDH exLayers (exFails exOutC 40) (exPolls 9)).isDone = true ∧
    exErr (serverRuns toyAead toyDH exLayers { exScript (exOutC.take 20) 10 with closed := true } (exPolls 9)) = some (.io .unexpectedEof) ∧ exErr (serverRuns toyAead toyDH exLayers (exScript (exOutC.take 20) 10) (exPolls 9)) = none := by
  decide +kernel

end Bromine.Props
