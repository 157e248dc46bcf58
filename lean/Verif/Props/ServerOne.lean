import Verif.Lemmas.ServerPlain
import Verif.Props.LayerServer
/-
C83, one layer: a server whose listener has one encrypted layer is the encrypted server of C35, C56, C57 and C74. C83, no layer: a server whose listener has none is the plain server.
-/
namespace Bromine.Props
open Bromine CryptIO Layers LayerServer Spec
open Bromine.Handshake (DH Keys toyDH)

/-- **C83, one layer.** Whatever a server with one encrypted layer does, the encrypted server of Model/Server.lean can do, when its surroundings do the same (the clients connect in the same order, polls get the same answers): it is at the same place
then, the same clients wait, and the same are served, with the same sessions. -/
theorem C83_one_layer (A : Aead) (D : DH) (k : Keys) {ops : List LayerServer.Op} (hf : ∀ v ∈ visitors ops, KeysSized [k] v) {s : LayerServer.State A D [k]} (hr : LayerServer.run A D [k] {} ops = some s) :
    ∃ ops' t, Server.run A D (.encrypted k) {} ops' = some t ∧ ops'.filterMap outer = ops.map outerL ∧ SameState s t := by
  obtain ⟨ops', t, h1, h2, h3⟩ := run_server_same ops (t := {}) ⟨.binding, rfl, rfl, by intro v hv; cases hv⟩ (fun v hv => hf v hv 0 (by simp)) hr
  refine ⟨ops', t, h1, h2, ?_, h3.backlog, h3.served⟩
  have := h3.place
  generalize s.phase = p at this
  generalize t.phase = q at this
  cases this with
  | binding => rfl
  | accepting => rfl
  | @settingUp v st side _ hs hg =>
    refine ⟨side, rfl, hg, ?_⟩
    have e : ((server A D (v.exchanges [k])).sock st).wire = (srvSock st).wire := congrArg Socket.wire (congrFun (server_sock (A := A) (D := D) { client := v.own 0, server := k, fresh := v.fresh 0 }) st)
    exact hs.sent.symm.trans e.symm
  | ended => rfl

/-- The hypotheses can be met: a client of one layer is served, the next one is in the set-up, and another waits. -/
example : KeysSized [(exLayer 5).server] (exVisitor 1 (cliStream toyAead toyDH [exLayer 5])) ∧
    (LayerServer.run toyAead toyDH [(exLayer 5).server] {} (.bind (.ok ()) :: .connect (exVisitor 1 (cliStream toyAead toyDH [exLayer 5])) :: .connect (exVisitor 2 []) :: .connect (exVisitor 3 []) :: .accept ::
      [.poll exAns, .accept, .poll exAns])).map (fun s => (s.served.map (·.visitor.id), (guest s).map (·.id), s.backlog.map (·.id))) = some ([1], [2], [3]) := by
  refine ⟨fun i hi => ?_, by decide +kernel⟩
  match i, hi with
  | 0, _ => rfl

/-- **C83, no layer.** Whatever a server whose listener has no encrypted layer does, the plain server of Model/Server.lean does, when the same clients connect to it and the socket does the same: it is at the same place then, the same clients wait, and
the same are served (one that was accepted just now, too). And whatever the plain server does, this one can do. -/
theorem C83_no_layer (A : Aead) (D : DH) :
    (∀ (ops : List LayerServer.Op) (s : LayerServer.State A D []), LayerServer.run A D [] {} ops = some s →
      ∃ ops' t, Server.run A D .plain {} ops' = some t ∧ ops'.filterMap outer = (ops.map outerL).filter Outer.matters ∧ PlainState s t) ∧
    (∀ (ops' : List Server.Op) (t : Server.State), Server.run A D .plain {} ops' = some t →
      ∃ ops s, LayerServer.run A D [] {} ops = some s ∧ (ops.map outerL).filter Outer.matters = ops'.filterMap outer ∧ PlainState s t ∧ guest s = []) :=
  ⟨fun ops _ hr => run_plain ops (s := {}) (t := {}) ⟨rfl, rfl, rfl⟩ hr, fun ops _ hr => run_plain' ops (s := {}) (t := {}) ⟨rfl, rfl, rfl⟩ rfl hr⟩

/-- The hypotheses can be met: a client is served, the next one is accepted, and another waits. -/
example : (LayerServer.run toyAead toyDH [] {} [.bind (.ok ()), .connect (exVisitor 1 []), .connect (exVisitor 2 []), .connect (exVisitor 3 []), .accept, .poll [], .accept]).map
      (fun s => (s.served.map (·.visitor.id), (guest s).map (·.id), s.backlog.map (·.id))) = some ([1], [2], [3]) ∧
    (Server.run toyAead toyDH .plain {} [.bind (.ok ()), .connect 1, .connect 2, .connect 3, .accept [], .accept []]).map (fun t => (t.served.map (·.1), t.backlog)) = some ([1, 2], [3]) := by decide +kernel

end Bromine.Props
