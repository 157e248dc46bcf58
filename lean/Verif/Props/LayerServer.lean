import Verif.Lemmas.LayerServer
/-
C83: a server whose listener has any number of encrypted layers.
-/
namespace Bromine.Props
open Bromine CryptIO Layers LayerServer Spec
open Bromine.Handshake (DH Keys toyDH)

section
variable {A : Aead} {D : DH} {keys : List Keys}

theorem exchanges_length (keys : List Keys) (v : Visitor) : (v.exchanges keys).length = keys.length := by simp [Visitor.exchanges]

theorem visitor_sized {v : Visitor} (hl : 68 + 20 * keys.length < 2 ^ 32) (h : KeysSized keys v) : ExchangeSized (v.exchanges keys) := by
  refine ⟨fun x hx => ?_, by rw [exchanges_length]; exact hl⟩
  unfold Visitor.exchanges at hx
  obtain ⟨i, hi, rfl⟩ := List.mem_mapIdx.1 hx
  exact h i hi

/-! ### Who is served -/

/-- **C83, in order.** Until the first error, every client that has connected is served, is the one in the set-up, or waits to be accepted, in the order in which they connected, each once. Also after an error, those who are served are the first
that have connected. -/
theorem C83_served_in_order {ops : List LayerServer.Op} {s : LayerServer.State A D keys} (hr : LayerServer.run A D keys {} ops = some s) :
    ((∀ r, s.phase ≠ .ended r) → s.served.map Served.visitor ++ guest s ++ s.backlog = visitors ops) ∧ s.served.map Served.visitor <+: visitors ops := by
  have h := sinv_run ops [] sinv_init hr
  rw [List.nil_append] at h
  exact ⟨h.account, h.order⟩

/-- **C83, the connections.** With every client that is served a set-up of all layers has completed: in every layer the server has heard a key that it trusts, and it writes and reads with the keys that it made for this client. -/
theorem C83_served (hl : 68 + 20 * keys.length < 2 ^ 32) {ops : List LayerServer.Op} (hf : ∀ v ∈ visitors ops, KeysSized keys v) {s : LayerServer.State A D keys} (hr : LayerServer.run A D keys {} ops = some s)
    (c : Served keys) (hc : c ∈ s.served) :
    (∀ ys x zs, c.visitor.exchanges keys = ys ++ x :: zs → ServerFriend A D (scriptBytes c.visitor.script) x zs) ∧
    WriteHalves _ (serverLayers (c.visitor.exchanges keys)) c.w ∧ ∃ heard, ReadsWith heard _ ((c.visitor.exchanges keys).map Exchange.fresh) c.r := by
  have h := sinv_run ops [] sinv_init hr
  rw [List.nil_append] at h
  obtain ⟨ps, h1, h2⟩ := h.served c hc
  have hs := visitor_sized hl (hf c.visitor (h.order.subset (List.mem_map_of_mem hc)))
  obtain ⟨_, heard, -, -, g3, g4⟩ := C81_server_done A D _ _ ps hs h2
  exact ⟨C81_server_trusts A D _ _ ps hs (by rw [show serverRuns A D _ _ ps = _ from h2]; rfl), g3, heard, g4⟩

/-- C83, the keys: with every client the server does one key exchange for each of its layers, with its own key of this layer and a session key made for this client and this layer. -/
theorem C83_keys (v : Visitor) (i : Nat) : (v.exchanges keys)[i]? = keys[i]?.map fun k => { client := v.own i, server := k, fresh := v.fresh i } := by
  simp [Visitor.exchanges, List.getElem?_mapIdx]

/-! ### What ends it -/

/-- **C83, why it ends.** `start` returns an error only if binding has failed. It returns `Ok` only after an error of the socket's `accept`, or when the set-up with a client has failed: a write to that client failed, or its socket took nothing;
it closed its connection; in some layer it sent a package that does not decipher; or in some layer it sent a key that is not trusted there. -/
theorem C83_ends_only (hl : 68 + 20 * keys.length < 2 ^ 32) {ops : List LayerServer.Op} (hf : ∀ v ∈ visitors ops, KeysSized keys v) {s : LayerServer.State A D keys} (hr : LayerServer.run A D keys {} ops = some s) :
    (∀ e, s.phase = .ended (.error e) → LayerServer.Op.bind (.error e) ∈ ops) ∧
    (s.phase = .ended (.ok ()) → (∃ e, LayerServer.Op.acceptFails e ∈ ops) ∨ ∃ v ∈ visitors ops,
      (∃ as x, LayerServer.Op.poll as ∈ ops ∧ (.fail x ∈ as ∨ .ready 0 ∈ as)) ∨ v.script.closed = true ∨ ServerUndecipherable A D (scriptBytes v.script) (v.exchanges keys) ∨
      ∃ key, ServerStranger A D (scriptBytes v.script) (v.exchanges keys) key) := by
  have h := sinv_run ops [] sinv_init hr
  rw [List.nil_append] at h
  refine ⟨fun e he => ?_, fun he => ?_⟩
  · rcases h.endedErr e he with h | ⟨v, h1, ps, k, h2⟩
    · exact h
    · exact absurd h2 ((C81_server_outcome A D _ _ ps (visitor_sized hl (hf v h1))).1 k)
  · rcases h.endedOk he with h | ⟨v, h1, ps, e, k, h2, h3⟩
    · exact .inl h
    · refine .inr ⟨v, h1, ?_⟩
      rcases (C81_server_outcome A D _ _ ps (visitor_sized hl (hf v h1))).2 e k h3 with ⟨as, g1, x, -, g3⟩ | ⟨-, g⟩ | ⟨-, g⟩ | ⟨key, -, g⟩
      · refine .inl ⟨as, x, h2 as g1, ?_⟩
        rcases g3 with g3 | ⟨-, g3⟩
        · exact .inl g3
        · exact .inr g3
      · exact .inr (.inl g)
      · exact .inr (.inr (.inl g))
      · exact .inr (.inr (.inr ⟨key, g⟩))

/-- C83: when it has ended, nobody is served any more. -/
theorem C83_ended {s s' : LayerServer.State A D keys} {r : Except Error Unit} (h : s.phase = .ended r) {ops : List LayerServer.Op} (hr : LayerServer.run A D keys s ops = some s') :
    s'.phase = .ended r ∧ s'.served = s.served := LayerServer.ended_run ops h hr

/-- The set-up with a client that sends all of its part. -/
theorem after_accept {s : LayerServer.State A D keys} {v : Visitor} {vs : List Visitor} (h : s.phase = .accepting) (hb : s.backlog = v :: vs) :
    LayerServer.step A D keys s .accept = some { s with backlog := vs, phase := .settingUp v ((server A D (v.exchanges keys)).init v.script) } := by
  simp only [LayerServer.step, h, hb]

/-- **C83, a client is served.** A client that sends all of its part, in whatever pieces, and whom the server trusts in every layer, is served, and the server goes on to accept the next, after as many polls in which the socket takes something
as it has bytes to send, the socket has answers to read, and twice the layers. -/
theorem C83_serves (hl : 68 + 20 * keys.length < 2 ^ 32) {s : LayerServer.State A D keys} {v : Visitor} {vs : List Visitor} (h : s.phase = .accepting) (hb : s.backlog = v :: vs) (hf : KeysSized keys v)
    (hc : SendsAll A D keys v) (hk : IsKnown D keys v) {outS : Bytes} (ho : ServerSends A D (v.exchanges keys) outS) (ps : List (List IoAns)) (hw : ∀ as ∈ ps, SocketWorks as)
    (hn : outS.length + v.script.chunks.length + 2 * keys.length < (ps.filter takesSome).length) :
    ∃ k c, k ≤ ps.length ∧ c.visitor = v ∧ LayerServer.run A D keys s (.accept :: (ps.take k).map .poll) = some { s with backlog := vs, served := s.served ++ [c] } := by
  obtain ⟨outC, hc1, hc2⟩ := hc
  obtain ⟨w, r, hd⟩ := C80_server_completes A D (v.exchanges keys) (visitor_sized hl hf) hk v.script ps hc1 ho hc2 hw (by rw [exchanges_length]; exact hn)
  have hfo := follows ps { s with backlog := vs, phase := .settingUp v ((server A D (v.exchanges keys)).init v.script) } true _ rfl
  rw [show (server A D (v.exchanges keys)).run (.pending true ((server A D (v.exchanges keys)).init v.script)) ps = .done w r from hd] at hfo
  obtain ⟨k, g1, g2⟩ := hfo
  refine ⟨k, { visitor := v, w := w, r := r }, g1, rfl, ?_⟩
  rw [LayerServer.run, after_accept h hb, Option.bind_some, g2, ← h]

/-- **C83, a stranger ends it.** If the server does not trust such a client in some layer (also if it does in the layers inside), the server ends, and serves nobody any more. -/
theorem C83_stranger_ends (hl : 68 + 20 * keys.length < 2 ^ 32) {s : LayerServer.State A D keys} {v : Visitor} {vs : List Visitor} (h : s.phase = .accepting) (hb : s.backlog = v :: vs) (hf : KeysSized keys v)
    (hc : SendsAll A D keys v) (hk : ¬ IsKnown D keys v) {outS : Bytes} (ho : ServerSends A D (v.exchanges keys) outS) (ps : List (List IoAns)) (hw : ∀ as ∈ ps, SocketWorks as)
    (hn : outS.length + v.script.chunks.length + 2 * keys.length < (ps.filter takesSome).length) :
    ∃ k, k ≤ ps.length ∧ LayerServer.run A D keys s (.accept :: (ps.take k).map .poll) = some { s with backlog := vs, phase := .ended (.ok ()) } := by
  obtain ⟨outC, hc1, hc2⟩ := hc
  obtain ⟨x, -, -, e, hd⟩ := C80_server_reports A D (v.exchanges keys) (visitor_sized hl hf) hk v.script ps hc1 ho hc2 hw (by rw [exchanges_length]; exact hn)
  have hfo := follows ps { s with backlog := vs, phase := .settingUp v ((server A D (v.exchanges keys)).init v.script) } true _ rfl
  rw [show (server A D (v.exchanges keys)).run (.pending true ((server A D (v.exchanges keys)).init v.script)) ps = .failed _ e from hd] at hfo
  obtain ⟨k, g1, g2⟩ := hfo
  refine ⟨k, g1, ?_⟩
  rw [LayerServer.run, after_accept h hb, Option.bind_some, g2]

/-- **C83, all are served.** If all clients that wait send all of their parts and are trusted, they can all be served, one after the other, by accepting and polling alone, whatever the clients that are served already do or do not do. -/
theorem C83_serves_all (hl : 68 + 20 * keys.length < 2 ^ 32) (as : List IoAns) (hw : Willing as) : ∀ (vs : List Visitor) {s : LayerServer.State A D keys}, s.phase = .accepting → s.backlog = vs →
    (∀ v ∈ vs, KeysSized keys v ∧ SendsAll A D keys v ∧ IsKnown D keys v) →
    ∃ ops s', (∀ o ∈ ops, o = .accept ∨ o = .poll as) ∧ LayerServer.run A D keys s ops = some s' ∧ s'.phase = .accepting ∧ s'.backlog = [] ∧ s'.served.map Served.visitor = s.served.map Served.visitor ++ vs := by
  intro vs
  induction vs with
  | nil => intro s h hb _; exact ⟨[], s, by simp, rfl, h, hb, by simp⟩
  | cons v vs ih =>
    intro s h hb hv
    obtain ⟨h1, h2, h3⟩ := hv v (by simp)
    have ho := srvStream_spec A D (visitor_sized hl h1)
    generalize hL : (srvStream A D (v.exchanges keys)).length + v.script.chunks.length + 2 * keys.length + 1 = L
    obtain ⟨k, c, -, g2, g3⟩ := C83_serves hl h hb h1 h2 h3 ho
      (List.replicate L as) (fun as' h' => by rw [(List.mem_replicate.1 h').2]; exact hw.healthy) (by rw [filter_willing fun as' h' => by rw [(List.mem_replicate.1 h').2]; exact hw]; simp; omega)
    obtain ⟨ops, s', f1, f2, f3, f4, f5⟩ := ih (s := { s with backlog := vs, served := s.served ++ [c] }) h rfl fun v' hv' => hv v' (by simp [hv'])
    refine ⟨(.accept :: ((List.replicate L as).take k).map .poll) ++ ops, s', ?_, by rw [LayerServer.server_run_append, g3]; exact f2, f3, f4, by rw [f5]; simp [g2]⟩
    · intro o ho
      rcases List.mem_append.1 ho with ho | ho
      · rcases List.mem_cons.1 ho with ho | ho
        · exact .inl ho
        · obtain ⟨a, h1, rfl⟩ := List.mem_map.1 ho
          rw [(List.mem_replicate.1 (List.mem_of_mem_take h1)).2]
          exact .inr rfl
      · exact f1 o ho

/-! ### What blocks it -/

/-- The set-up with a silent client goes on for ever. -/
theorem silent_pending (hl : 68 + 20 * keys.length < 2 ^ 32) {v : Visitor} (hf : KeysSized keys v) (hq : FallsSilent A D keys v) (hk : IsKnown D keys v) (ps : List (List IoAns))
    (hg : ∀ as ∈ ps, .ready 0 ∉ as ∧ ∀ e, .fail e ∉ as) : ∃ b st, after A D keys v ps = .pending b st := by
  obtain ⟨out, h1, h2, h3, h4⟩ := hq
  have hs := visitor_sized hl hf
  have e := clientSends_unique h1 (cliStream_spec A D hs)
  subst e
  obtain ⟨G⟩ := srv_goes A D v.script.closed (scriptBytes v.script) hs (.inl h2)
  have hr := G.runs (sc := v.script) rfl ps
  change Ran _ _ _ _ _ _ _ _ _ _ _ _ (after A D keys v ps) at hr
  generalize after A D keys v ps = x at hr
  cases hr with
  | done g1 g2 =>
    exfalso
    obtain ⟨-, -, rest, g3, -⟩ := g1
    rw [g3] at h2 h3
    have := h2.length_le
    simp only [List.length_append] at this
    have : rest = [] := List.eq_nil_of_length_eq_zero (by omega)
    subst this
    exact h3 (by simp)
  | pending => exact ⟨_, _, rfl⟩
  | failed g1 g2 =>
    exfalso
    rcases g2 trivial with ⟨as, f1, er, -, f2⟩ | ⟨-, f2, -⟩ | ⟨x, f1, -, f2⟩
    · rcases f2 with f2 | ⟨-, f2⟩
      · exact (hg as f1).2 er f2
      · exact (hg as f1).1 f2
    · rw [h4] at f2; cases f2
    · exact f2 (hk x f1)
  | panicked g1 g2 => exact absurd trivial g2

/-- **C83, a silent client blocks all others.** A client whom the server trusts in every layer, and who keeps to the protocol but stops at any point before the end, in any layer, and does not close the connection: as long as its socket does not
fail, nobody else is ever served, however many connect and however often the server is polled. -/
theorem C83_blocked (hl : 68 + 20 * keys.length < 2 ^ 32) {s : LayerServer.State A D keys} {v : Visitor} {vs : List Visitor} (h : s.phase = .accepting) (hb : s.backlog = v :: vs) (hf : KeysSized keys v)
    (hq : FallsSilent A D keys v) (hk : IsKnown D keys v) {ops : List LayerServer.Op} (hg : ∀ as, LayerServer.Op.poll as ∈ ops → .ready 0 ∉ as ∧ ∀ e, .fail e ∉ as)
    {s' : LayerServer.State A D keys} (hr : LayerServer.run A D keys s (.accept :: ops) = some s') :
    s'.served = s.served ∧ guest s' = [v] := by
  have key : ∀ (ops : List LayerServer.Op) (s1 : LayerServer.State A D keys) (ps : List (List IoAns)) (b : Bool) (st : (server A D (v.exchanges keys)).State), s1.phase = .settingUp v st → after A D keys v ps = .pending b st →
      (∀ as ∈ ps, .ready 0 ∉ as ∧ ∀ e, .fail e ∉ as) → (∀ as, LayerServer.Op.poll as ∈ ops → .ready 0 ∉ as ∧ ∀ e, .fail e ∉ as) → LayerServer.run A D keys s1 ops = some s' → s'.served = s1.served ∧ guest s' = [v] := by
    intro ops
    induction ops with
    | nil => intro s1 ps b st hp _ _ _ hr; cases hr; exact ⟨rfl, by simp [guest, hp]⟩
    | cons o ops ih =>
      intro s1 ps b st hp ha hps hops hr
      obtain ⟨s2, h1, h2⟩ := Option.bind_eq_some_iff.1 hr
      have hops' : ∀ as, LayerServer.Op.poll as ∈ ops → .ready 0 ∉ as ∧ ∀ e, .fail e ∉ as := fun as h' => hops as (by simp [h'])
      cases o with
      | bind r => simp [LayerServer.step, hp] at h1
      | connect v' => cases h1; have := ih _ ps b st (by exact hp) ha hps hops' h2; exact this
      | accept => simp [LayerServer.step, hp] at h1
      | acceptFails e => simp [LayerServer.step, hp] at h1
      | poll as =>
        have hps' : ∀ as' ∈ ps ++ [as], .ready 0 ∉ as' ∧ ∀ e, .fail e ∉ as' := by
          intro as' h'
          rcases List.mem_append.1 h' with h' | h'
          · exact hps as' h'
          · simp only [List.mem_singleton] at h'; subst h'; exact hops as' (by simp)
        obtain ⟨b', st', hx⟩ := silent_pending hl hf hq hk (ps ++ [as]) hps'
        have hx' := hx
        rw [after_snoc ha] at hx'
        simp only [LayerServer.step, hp, hx', Option.some.injEq] at h1
        subst h1
        have := ih _ _ b' st' (by rfl) hx hps' hops' h2
        exact this
  rw [LayerServer.run, after_accept h hb, Option.bind_some] at hr
  have := key ops _ [] true _ (by rfl) rfl (by simp) hg hr
  exact this

end

/-! ### Examples -/

/-- A server with two layers. -/
def exKeys : List Keys := [(exLayer 5).server, (exLayer 9).server]

/-- A client with the keys of `exLayers`, from whom these bytes come. -/
def exVisitor (n : Nat) (bs : Bytes) : Visitor :=
  { id := n, script := exScript bs 40, own := fun | 0 => (exLayer 5).client | _ => (exLayer 9).client, fresh := fun | 0 => List.replicate 32 5 | _ => List.replicate 32 9 }

theorem exVisitor_exchanges (n : Nat) (bs : Bytes) : (exVisitor n bs).exchanges exKeys = exLayers := rfl

/-- A client that the outer layer does not know. -/
def exStrange : Visitor := { exVisitor 3 (cliStream toyAead toyDH [{ exLayer 5 with client := { secret := [5, 3], knownPeers := [] } }, exLayer 9]) with own := fun | 0 => { secret := [5, 3], knownPeers := [] } | _ => (exLayer 9).client }

theorem exSized : ExchangeSized exLayers := by
  refine ⟨fun x hx => ?_, by decide⟩
  simp only [exLayers, List.mem_cons, List.not_mem_nil, or_false] at hx
  rcases hx with rfl | rfl <;> rfl

/-- The hypotheses about clients can be met: one sends all, with something after it; one falls silent in the outer layer, when the inner layer is set up; both are known. -/
example : KeysSized exKeys (exVisitor 1 (exOutC ++ [1, 2])) ∧ SendsAll toyAead toyDH exKeys (exVisitor 1 (exOutC ++ [1, 2])) ∧ IsKnown toyDH exKeys (exVisitor 1 (exOutC ++ [1, 2])) ∧
    FallsSilent toyAead toyDH exKeys (exVisitor 2 (exOutC.take 60)) ∧ IsKnown toyDH exKeys (exVisitor 2 (exOutC.take 60)) := by
  have hk : ServerAdmits toyDH exLayers := by
    intro x hx
    simp only [exLayers, List.mem_cons, List.not_mem_nil, or_false] at hx
    rcases hx with rfl | rfl <;> exact .inr (by decide)
  refine ⟨fun i hi => ?_, ⟨exOutC, cliStream_spec _ _ exSized, by decide +kernel⟩, hk, ⟨exOutC, cliStream_spec _ _ exSized, by decide +kernel, by decide +kernel, rfl⟩, hk⟩
  match i, hi with
  | 0, _ => rfl
  | 1, _ => rfl

/-- And one is not. -/
example : SendsAll toyAead toyDH exKeys exStrange ∧ ¬ IsKnown toyDH exKeys exStrange := by
  refine ⟨⟨_, cliStream_spec _ _ (xs := exStrange.exchanges exKeys) (visitor_sized (by decide) fun i hi => ?_), by decide +kernel⟩, fun h => ?_⟩
  · match i, hi with
    | 0, _ => rfl
    | 1, _ => rfl
  · have := h { client := { secret := [5, 3], knownPeers := [] }, server := (exLayer 5).server, fresh := List.replicate 32 5 } (by exact List.mem_cons_self)
    rcases this with h | h
    · cases h
    · revert h; decide

def exAns : List IoAns := [.ready 7, .ready 100, .ready 100, .ready 100, .ready 100, .ready 100, .ready 100, .ready 100]

/-- What is seen of a server: whether it has ended, and the numbers of the clients that are served, in the set-up, and waiting. -/
def exSeen (s : LayerServer.State toyAead toyDH exKeys) : Bool × List Nat × List Nat × List Nat :=
  ((match s.phase with | .ended _ => true | _ => false), s.served.map (·.visitor.id), (guest s).map (·.id), s.backlog.map (·.id))

/-- A server that serves one client, and is blocked by the next. -/
example : (LayerServer.run toyAead toyDH exKeys {} (.bind (.ok ()) :: .connect (exVisitor 1 exOutC) :: .connect (exVisitor 2 (exOutC.take 60)) :: .accept :: (List.replicate 2 (.poll exAns) ++ .accept :: .connect (exVisitor 4 exOutC) ::
    List.replicate 20 (.poll exAns)))).map exSeen = some (false, [1], [2], [4]) := by decide +kernel

/-- A server that serves one client, and is ended by a stranger. -/
example : (LayerServer.run toyAead toyDH exKeys {} (.bind (.ok ()) :: .connect (exVisitor 1 exOutC) :: .connect exStrange :: .connect (exVisitor 4 exOutC) :: .accept :: (List.replicate 2 (.poll exAns) ++ .accept ::
    List.replicate 2 (.poll exAns)))).map exSeen = some (true, [1], [], [4]) := by decide +kernel

end Bromine.Props
