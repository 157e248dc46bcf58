import Verif.Lemmas.ExchangeOne
import Verif.Props.LayerExchange
/-
C80, one layer: the key exchange of one encrypted layer over a socket is the key exchange of an encrypted connection (C12, C13, C39 and others).
-/
namespace Bromine.Props
open Bromine CryptIO Layers Spec
open Bromine.Handshake (DH Keys Side SPhase CPhase toyDH serverPoll clientPoll serverInit clientInit)

/-- **C80, one layer, server.** Whatever the socket answers, and however often the future of one layer is polled: there is a history of the key exchange of Model/Handshake.lean, in which the same bytes arrive and the polls get the same
answers, that leads to the same outcome, with the same bytes sent. -/
theorem C80_one_layer_server (A : Aead) (D : DH) (x : Exchange) (hf : x.fresh.length = 32) (sc : Script) (ps : List (List IoAns)) :
    ∃ ops σ, Side.run (serverPoll A D x.server x.fresh) serverInit (.arrive sc.bytes :: ops) = some σ ∧ σ.got = sc.bytes ∧ σ.sent = serverSent A D [x] sc ps ∧ SameServer (serverRuns A D [x] sc ps) σ ∧
      ops.filterMap pollAnswers <+: ps ∧ ((serverRuns A D [x] sc ps).isPending = true → ops.filterMap pollAnswers = ps) ∧ (.close ∈ ops → sc.closed = true) := by
  obtain ⟨ops, σ, h1, h2, h3, h4, h5, h6⟩ := server_same (A := A) (D := D) x hf sc ps
  refine ⟨ops, σ, h1, h2, ?_, ?_, h3, ?_, h6⟩
  · unfold serverSent
    have hk : (server A D [x]).sock = srvSock := by
      funext s
      rcases s with s | (_ | _ | _ | _ | _) <;> rfl
    rw [hk]
    generalize serverRuns A D [x] sc ps = X at h4
    cases h4 with
    | pending _ g _ => exact g.symm
    | done _ g _ => exact g.symm
    | failed _ g => exact g.symm
    | panicked _ g => exact g.symm
  · generalize serverRuns A D [x] sc ps = X at h4
    cases h4 with
    | pending g _ _ =>
      obtain ⟨ph, ib, cl, se, go⟩ := σ
      dsimp only at g
      cases g <;> exact ⟨by simp, by simp, by simp⟩
    | done g _ g' => exact ⟨g, g'.symm⟩
    | failed g _ => exact g
    | panicked g _ => exact g
  · intro hp
    generalize hX : serverRuns A D [x] sc ps = X at hp
    cases X with
    | pending b s => exact h5 b s hX
    | _ => cases hp

/-- **C80, one layer, client.** -/
theorem C80_one_layer_client (A : Aead) (D : DH) (x : Exchange) (sc : Script) (ps : List (List IoAns)) :
    ∃ ops σ, Side.run (clientPoll A D x.client) (clientInit D x.client) (.arrive sc.bytes :: ops) = some σ ∧ σ.got = sc.bytes ∧ σ.sent = clientSent A D [x] sc ps ∧ SameClient (clientRuns A D [x] sc ps) σ ∧
      ops.filterMap pollAnswers <+: ps ∧ ((clientRuns A D [x] sc ps).isPending = true → ops.filterMap pollAnswers = ps) ∧ (.close ∈ ops → sc.closed = true) := by
  obtain ⟨ops, σ, h1, h2, h3, h4, h5, h6⟩ := client_same (A := A) (D := D) x sc ps
  refine ⟨ops, σ, h1, h2, ?_, ?_, h3, ?_, h6⟩
  · unfold clientSent
    have hk : (client A D [x]).sock = cliSock := by
      funext s
      rcases s with s | (_ | _ | _ | _) <;> rfl
    rw [hk]
    generalize clientRuns A D [x] sc ps = X at h4
    cases h4 with
    | pending _ g _ => exact g.symm
    | done _ g _ => exact g.symm
    | failed _ g => exact g.symm
    | panicked _ g => exact g.symm
  · generalize clientRuns A D [x] sc ps = X at h4
    cases h4 with
    | pending g _ _ =>
      obtain ⟨ph, ib, cl, se, go⟩ := σ
      dsimp only at g
      cases g <;> exact ⟨by simp, by simp, by simp⟩
    | done g _ g' => exact ⟨g, g'.symm⟩
    | failed g _ => exact g
    | panicked g _ => exact g
  · intro hp
    generalize hX : clientRuns A D [x] sc ps = X at hp
    cases X with
    | pending b s => exact h5 b s hX
    | _ => cases hp

/-- One layer, in two pieces with a pause, done on both sides. -/
example : (exLayer 9).fresh.length = 32 ∧ (serverRuns toyAead toyDH [exLayer 9] (exScript (cliStream toyAead toyDH [exLayer 9]) 20) (exPolls 4)).isDone = true ∧
    (clientRuns toyAead toyDH [exLayer 9] (exScript (srvStream toyAead toyDH [exLayer 9]) 50) (exPolls 4)).isDone = true := by
  refine ⟨rfl, ?_, ?_⟩ <;> decide +kernel

end Bromine.Props
