import Verif.Lemmas.LayerPair
/-
C80: setting up encrypted layers in each other.
-/
namespace Bromine.Props
open Bromine CryptIO Layers Spec
open Bromine.Handshake (DH Keys toyDH)

section
variable {A : Aead} {D : DH} {xs : List Exchange} {scC scS : Script} {psC psS : List (List IoAns)}

theorem tail_stream (A : Aead) (D : DH) (xs : List Exchange) : srvStream A D xs.tail <+: srvStream A D xs := by
  cases xs <;> simp [srvStream]

/-- What is known of the client. -/
theorem client_ran (h : Exchanging A D xs scC scS psC psS) : ∃ inv, Ran (layersW A xs.length) (layersR A xs.length) (client A D xs).sock inv (CliFin A D scC.closed (scriptBytes scC) xs)
    (Cmp (scriptBytes scC) (srvStream A D xs)) (srvStream A D xs <+: scriptBytes scC ∨ (Cmp (scriptBytes scC) (srvStream A D xs) ∧ scC.closed = true)) (CliStop A D scC.closed (scriptBytes scC) xs) [] (cliStream A D xs)
    ((cliStream A D xs).length + scC.chunks.length + xs.length) psC (clientRuns A D xs scC psC) ∧ Cmp (scriptBytes scC) (srvStream A D xs) := by
  obtain ⟨h1, -⟩ := both_cmp A D xs scC scS psC psS h.sized h.toClient h.toServer xs [] rfl
  obtain ⟨G⟩ := cli_goes A D scC.closed (scriptBytes scC) h.sized (h1.prefix_right (tail_stream A D xs))
  exact ⟨G.inv, G.runs (sc := scC) rfl psC, h1⟩

/-- What is known of the server. -/
theorem server_ran (h : Exchanging A D xs scC scS psC psS) : ∃ inv, Ran (layersW A xs.length) (layersR A xs.length) (server A D xs).sock inv (SrvFin A D scS.closed (scriptBytes scS) xs)
    True (cliStream A D xs <+: scriptBytes scS ∨ scS.closed = true) (SrvStop A D scS.closed (scriptBytes scS) xs) [] (srvStream A D xs)
    ((srvStream A D xs).length + scS.chunks.length + 2 * xs.length) psS (serverRuns A D xs scS psS) := by
  obtain ⟨-, h1⟩ := both_cmp A D xs scC scS psC psS h.sized h.toClient h.toServer xs [] rfl
  obtain ⟨G⟩ := srv_goes A D scS.closed (scriptBytes scS) h.sized h1
  exact ⟨G.inv, G.runs (sc := scS) rfl psS⟩

/-- **C80, the wire.** Client and server set up any number of encrypted layers in each other. Whatever the sockets answer, and however often and in which order the two are polled: what the client has sent is a prefix of its public keys, one for
each layer from the innermost, each through all layers inside; and what the server has sent is a prefix of, for each layer, its public key and then the key it made, in a package with the secret that both compute. A side that is done has
sent all of it. -/
theorem C80_wire (h : Exchanging A D xs scC scS psC psS) :
    ∃ outC outS, ClientSends A D xs outC ∧ ServerSends A D xs outS ∧
      clientSent A D xs scC psC <+: outC ∧ serverSent A D xs scS psS <+: outS ∧
      ((clientRuns A D xs scC psC).isDone = true → clientSent A D xs scC psC = outC) ∧ ((serverRuns A D xs scS psS).isDone = true → serverSent A D xs scS psS = outS) := by
  obtain ⟨_, hc, -⟩ := client_ran h
  obtain ⟨_, hs⟩ := server_ran h
  exact ⟨_, _, cliStream_spec A D h.sized, srvStream_spec A D h.sized, hc.sent.1, hs.sent.1, hc.sent.2, hs.sent.2⟩

/-- **C80, the sessions of the client.** A client that is done trusts the server in every layer, has received all that the server sends for the set-up, and has a session in every layer, with the key that the server made for it; the
packages of each are numbered from the number of those that the set-up of the layers around it has sent. Nothing is buffered, and all that was received after the set-up is still there to be read. -/
theorem C80_client_done (h : Exchanging A D xs scC scS psC psS) {w : WState xs.length} {r : RState xs.length} (hd : clientRuns A D xs scC psC = .done w r) :
    ClientAdmits D xs ∧ WriteHalves xs.length (clientLayers xs) w ∧ ∃ outS rest, ServerSends A D xs outS ∧ scriptBytes scC = outS ++ rest ∧ ReadHalves scC.closed rest xs.length (serverLayers xs) r := by
  obtain ⟨_, hc, hcmp⟩ := client_ran h
  rw [hd] at hc
  cases hc with
  | done h1 h2 =>
    obtain ⟨g1, g2, rest, g3, g4⟩ := h1 hcmp
    have hw := cli_writeHalves A xs 0 g2
    have hr := cli_readHalves A _ xs 0 g4
    rw [after_zero] at hw hr
    exact ⟨g1, hw, _, rest, srvStream_spec A D h.sized, g3, hr⟩

/-- **C80, the sessions of the server.** The same for a server that is done: it reads with the sessions that the client writes with, and writes with those that the client reads with. -/
theorem C80_server_done (h : Exchanging A D xs scC scS psC psS) {w : WState xs.length} {r : RState xs.length} (hd : serverRuns A D xs scS psS = .done w r) :
    ServerAdmits D xs ∧ WriteHalves xs.length (serverLayers xs) w ∧ ∃ outC rest, ClientSends A D xs outC ∧ scriptBytes scS = outC ++ rest ∧ ReadHalves scS.closed rest xs.length (clientLayers xs) r := by
  obtain ⟨_, hc⟩ := server_ran h
  rw [hd] at hc
  cases hc with
  | done h1 h2 =>
    obtain ⟨g1, g2, rest, g3, g4⟩ := h1
    have hw := srv_writeHalves A D xs 0 g2
    have hr := srv_readHalves A _ xs 0 g4
    rw [after_zero] at hw hr
    exact ⟨g1, hw, _, rest, cliStream_spec A D h.sized, g3, hr⟩

/-- **C80, no other outcome.** The client does not panic; while it is pending its task is registered at the socket; and it fails only with the error of a write to the socket, with `WriteZero` if the socket
takes nothing, with `UnexpectedEof` if the connection is closed before all that the server sends has arrived, or with `UnknownPeer` and the public key of the server in some layer if it does not trust it there. -/
theorem C80_client_outcome (h : Exchanging A D xs scC scS psC psS) :
    (∃ w r, clientRuns A D xs scC psC = .done w r) ∨ (∃ s, clientRuns A D xs scC psC = .pending true s) ∨
    (∃ e k, clientRuns A D xs scC psC = .failed e k ∧
      ((∃ as ∈ psC, ∃ er, e = .io er ∧ (.fail er ∈ as ∨ (er = .writeZero ∧ .ready 0 ∈ as))) ∨
        (e = .io .unexpectedEof ∧ scC.closed = true ∧ ∀ outS, ServerSends A D xs outS → ¬ outS <+: scriptBytes scC) ∨
        (∃ x ∈ xs, e = .unknownPeer (D.pub x.server.secret) ∧ ¬ Trusts D x.client (D.pub x.server.secret)))) := by
  obtain ⟨_, hc, hcmp⟩ := client_ran h
  generalize clientRuns A D xs scC psC = x at hc
  cases hc with
  | done h1 h2 => exact .inl ⟨_, _, rfl⟩
  | pending h1 h2 h3 h4 h5 => rw [h4 hcmp]; exact .inr (.inl ⟨_, rfl⟩)
  | failed h1 h2 =>
    refine .inr (.inr ⟨_, _, rfl, ?_⟩)
    rcases h2 hcmp with g | ⟨g0, g1, g2⟩ | g
    · exact .inl g
    · exact .inr (.inl ⟨g0, g1, fun outS ho => by rw [serverSends_unique ho (srvStream_spec A D h.sized)]; exact g2⟩)
    · exact .inr (.inr g)
  | panicked h1 h2 => exact absurd hcmp h2

/-- C80, no other outcome, the server. -/
theorem C80_server_outcome (h : Exchanging A D xs scC scS psC psS) :
    (∃ w r, serverRuns A D xs scS psS = .done w r) ∨ (∃ s, serverRuns A D xs scS psS = .pending true s) ∨
    (∃ e k, serverRuns A D xs scS psS = .failed e k ∧
      ((∃ as ∈ psS, ∃ er, e = .io er ∧ (.fail er ∈ as ∨ (er = .writeZero ∧ .ready 0 ∈ as))) ∨
        (e = .io .unexpectedEof ∧ scS.closed = true ∧ ∀ outC, ClientSends A D xs outC → ¬ outC <+: scriptBytes scS) ∨
        (∃ x ∈ xs, e = .unknownPeer (D.pub x.client.secret) ∧ ¬ Trusts D x.server (D.pub x.client.secret)))) := by
  obtain ⟨_, hc⟩ := server_ran h
  generalize serverRuns A D xs scS psS = x at hc
  cases hc with
  | done h1 h2 => exact .inl ⟨_, _, rfl⟩
  | pending h1 h2 h3 h4 h5 => rw [h4 trivial]; exact .inr (.inl ⟨_, rfl⟩)
  | failed h1 h2 =>
    refine .inr (.inr ⟨_, _, rfl, ?_⟩)
    rcases h2 trivial with g | ⟨g0, g1, g2⟩ | g
    · exact .inl g
    · exact .inr (.inl ⟨g0, g1, fun outC ho => by rw [clientSends_unique ho (cliStream_spec A D h.sized)]; exact g2⟩)
    · exact .inr (.inr g)
  | panicked h1 h2 => exact absurd trivial h2

end

/-! ### Strangers -/

/-- **C80, strangers.** A client that does not trust the server in some layer never has a connection, and sends nothing for the layers around it. -/
theorem C80_client_refuses {A : Aead} {D : DH} {xs ys zs : List Exchange} {x : Exchange} (hx : xs = ys ++ x :: zs) (hr : ¬ Trusts D x.client (D.pub x.server.secret)) {scC scS : Script} {psC psS : List (List IoAns)}
    (h : Exchanging A D xs scC scS psC psS) :
    (clientRuns A D xs scC psC).isDone = false ∧ ∃ out, ClientSends A D (x :: zs) out ∧ clientSent A D xs scC psC <+: out := by
  subst hx
  obtain ⟨h1, -⟩ := both_cmp A D _ scC scS psC psS h.sized h.toClient h.toServer (x :: zs) ys rfl
  have hz : ExchangeSized (x :: zs) := by
    obtain ⟨h1, h2⟩ := h.sized
    simp only [List.length_append] at h2
    exact ⟨fun y hy => h1 y (List.mem_append_right _ hy), by omega⟩
  obtain ⟨G⟩ := cli_goes A D scC.closed (scriptBytes scC) hz (h1.prefix_right (tail_stream A D _))
  have hg := G.runs (sc := scC) rfl psC
  change Ran _ _ _ _ _ _ _ _ _ _ _ _ (clientRuns A D (x :: zs) scC psC) at hg
  have hnd : (clientRuns A D (x :: zs) scC psC).isDone = false := by
    have hg := hg
    generalize clientRuns A D (x :: zs) scC psC = y at hg
    cases hg with
    | done h2 h3 => exact absurd ((h2 h1).1 x (by simp)) hr
    | pending => rfl
    | failed => rfl
    | panicked => rfl
  obtain ⟨i1, i2⟩ := (client_contains A D scC psC (x :: zs) ys).1 hnd
  refine ⟨i1, _, cliStream_spec A D hz, ?_⟩
  unfold clientSent
  rw [i2]
  exact hg.sent.1

/-- C80, strangers, the server: one that does not trust the client in some layer never has a connection, and sends nothing for this layer and those around it. -/
theorem C80_server_refuses {A : Aead} {D : DH} {xs ys zs : List Exchange} {x : Exchange} (hx : xs = ys ++ x :: zs) (hr : ¬ Trusts D x.server (D.pub x.client.secret)) {scC scS : Script} {psC psS : List (List IoAns)}
    (h : Exchanging A D xs scC scS psC psS) :
    (serverRuns A D xs scS psS).isDone = false ∧ ∃ out, ServerSends A D zs out ∧ serverSent A D xs scS psS <+: out := by
  subst hx
  obtain ⟨-, h1⟩ := both_cmp A D _ scC scS psC psS h.sized h.toClient h.toServer (x :: zs) ys rfl
  have hz : ExchangeSized (x :: zs) := by
    obtain ⟨h1, h2⟩ := h.sized
    simp only [List.length_append] at h2
    exact ⟨fun y hy => h1 y (List.mem_append_right _ hy), by omega⟩
  obtain ⟨G⟩ := srv_refuses A D scS.closed (scriptBytes scS) hz h1 hr
  have hg := G.runs (sc := scS) rfl psS
  change Ran _ _ _ _ _ _ _ _ _ _ _ _ (serverRuns A D (x :: zs) scS psS) at hg
  have hnd : (serverRuns A D (x :: zs) scS psS).isDone = false := by
    have hg := hg
    generalize serverRuns A D (x :: zs) scS psS = y at hg
    cases hg with
    | done h2 h3 => exact h2.elim
    | pending => rfl
    | failed => rfl
    | panicked => rfl
  obtain ⟨i1, i2⟩ := (server_contains A D scS psS (x :: zs) ys).1 hnd
  refine ⟨i1, _, srvStream_spec A D hz.tail.2.1, ?_⟩
  unfold serverSent
  rw [i2]
  have := hg.sent.1
  rw [List.append_nil] at this
  exact this

/-! ### Progress -/

/-- The socket takes at least one byte, and does not fail. -/
def Willing (as : List IoAns) : Prop := (∃ n l, as = .ready (n + 1) :: l) ∧ .ready 0 ∉ as ∧ ∀ e, .fail e ∉ as

theorem Willing.healthy {as : List IoAns} (h : Willing as) : SocketWorks as := h.2

theorem filter_willing {ps : List (List IoAns)} (h : ∀ as ∈ ps, Willing as) : ps.filter takesSome = ps :=
  List.filter_eq_self.2 fun as ha => takesSome_iff.2 (h as ha).1

theorem _root_.Bromine.Spec.SocketWorks.ok {as : List IoAns} (h : SocketWorks as) : ∀ e, ¬ Fails as e := by
  rintro e (h' | ⟨-, h'⟩)
  · exact h.2 e h'
  · exact h.1 h'

theorem Willing.ok {as : List IoAns} (h : Willing as) : HeadReady as ∧ ∀ e, ¬ Fails as e := by
  refine ⟨h.1, fun e hb => ?_⟩
  rcases hb with h' | ⟨-, h'⟩
  · exact h.2.2 e h'
  · exact h.2.1 h'

/-- **C80, progress.** A client that trusts the server in every layer, and to which all that the server sends arrives sooner or later, in whatever pieces, is done after as many polls in which the socket takes something
as it has bytes to send, the socket has answers to read, and there are layers, whatever other polls come between. -/
theorem C80_client_completes (A : Aead) (D : DH) (xs : List Exchange) (hs : ExchangeSized xs) (ht : ClientAdmits D xs) (sc : Script) (ps : List (List IoAns)) {outC outS : Bytes} (hc : ClientSends A D xs outC)
    (ho : ServerSends A D xs outS) (hin : outS <+: scriptBytes sc) (hw : ∀ as ∈ ps, SocketWorks as) (hn : outC.length + sc.chunks.length + xs.length < (ps.filter takesSome).length) :
    ∃ w r, clientRuns A D xs sc ps = .done w r := by
  rw [serverSends_unique ho (srvStream_spec A D hs)] at hin
  rw [clientSends_unique hc (cliStream_spec A D hs)] at hn
  obtain ⟨G⟩ := cli_goes A D sc.closed (scriptBytes sc) hs (.prefix_right (.inr hin) (tail_stream A D xs))
  have hr := G.runs (sc := sc) rfl ps
  change Ran _ _ _ _ _ _ _ _ _ _ _ _ (clientRuns A D xs sc ps) at hr
  generalize clientRuns A D xs sc ps = x at hr
  cases hr with
  | done h1 h2 => exact ⟨_, _, rfl⟩
  | pending h1 h2 h3 h4 h5 => have := h5 (.inr hin) (.inl hin); rw [List.countP_eq_length_filter] at this; omega
  | failed h1 h2 =>
    rcases h2 (.inr hin) with ⟨as, g1, er, -, g2⟩ | ⟨-, -, g2⟩ | ⟨x, g1, -, g2⟩
    · exact absurd g2 ((hw as g1).ok er)
    · exact absurd hin g2
    · exact absurd (ht x g1) g2
  | panicked h1 h2 => exact absurd (.inr hin) h2

/-- **C80, the refusal is reported.** Under the same conditions a client that does not trust the server in some layer fails with `UnknownPeer` and the public key of the server in such a layer. -/
theorem C80_client_reports (A : Aead) (D : DH) (xs : List Exchange) (hs : ExchangeSized xs) (ht : ¬ ClientAdmits D xs) (sc : Script) (ps : List (List IoAns)) {outC outS : Bytes} (hc : ClientSends A D xs outC)
    (ho : ServerSends A D xs outS) (hin : outS <+: scriptBytes sc) (hw : ∀ as ∈ ps, SocketWorks as) (hn : outC.length + sc.chunks.length + xs.length < (ps.filter takesSome).length) :
    ∃ x ∈ xs, ¬ Trusts D x.client (D.pub x.server.secret) ∧ ∃ k, clientRuns A D xs sc ps = .failed (.unknownPeer (D.pub x.server.secret)) k := by
  rw [serverSends_unique ho (srvStream_spec A D hs)] at hin
  rw [clientSends_unique hc (cliStream_spec A D hs)] at hn
  obtain ⟨G⟩ := cli_goes A D sc.closed (scriptBytes sc) hs (.prefix_right (.inr hin) (tail_stream A D xs))
  have hr := G.runs (sc := sc) rfl ps
  change Ran _ _ _ _ _ _ _ _ _ _ _ _ (clientRuns A D xs sc ps) at hr
  generalize clientRuns A D xs sc ps = x at hr
  cases hr with
  | done h1 h2 => exact absurd (h1 (.inr hin)).1 ht
  | pending h1 h2 h3 h4 h5 => have := h5 (.inr hin) (.inl hin); rw [List.countP_eq_length_filter] at this; omega
  | failed h1 h2 =>
    rcases h2 (.inr hin) with ⟨as, g1, er, -, g2⟩ | ⟨-, -, g2⟩ | ⟨x, g1, g0, g2⟩
    · exact absurd g2 ((hw as g1).ok er)
    · exact absurd hin g2
    · rw [g0]; exact ⟨x, g1, g2, _, rfl⟩
  | panicked h1 h2 => exact absurd (.inr hin) h2

/-- C80, progress, the server. -/
theorem C80_server_completes (A : Aead) (D : DH) (xs : List Exchange) (hs : ExchangeSized xs) (ht : ServerAdmits D xs) (sc : Script) (ps : List (List IoAns)) {outC outS : Bytes} (hc : ClientSends A D xs outC)
    (ho : ServerSends A D xs outS) (hin : outC <+: scriptBytes sc) (hw : ∀ as ∈ ps, SocketWorks as) (hn : outS.length + sc.chunks.length + 2 * xs.length < (ps.filter takesSome).length) :
    ∃ w r, serverRuns A D xs sc ps = .done w r := by
  rw [serverSends_unique ho (srvStream_spec A D hs)] at hn
  rw [clientSends_unique hc (cliStream_spec A D hs)] at hin
  obtain ⟨G⟩ := srv_goes A D sc.closed (scriptBytes sc) hs (.inr hin)
  have hr := G.runs (sc := sc) rfl ps
  change Ran _ _ _ _ _ _ _ _ _ _ _ _ (serverRuns A D xs sc ps) at hr
  generalize serverRuns A D xs sc ps = x at hr
  cases hr with
  | done h1 h2 => exact ⟨_, _, rfl⟩
  | pending h1 h2 h3 h4 h5 => have := h5 trivial (.inl hin); rw [List.countP_eq_length_filter] at this; omega
  | failed h1 h2 =>
    rcases h2 trivial with ⟨as, g1, er, -, g2⟩ | ⟨-, -, g2⟩ | ⟨x, g1, -, g2⟩
    · exact absurd g2 ((hw as g1).ok er)
    · exact absurd hin g2
    · exact absurd (ht x g1) g2
  | panicked h1 h2 => exact absurd trivial h2

/-- C80, the refusal is reported, the server. -/
theorem C80_server_reports (A : Aead) (D : DH) (xs : List Exchange) (hs : ExchangeSized xs) (ht : ¬ ServerAdmits D xs) (sc : Script) (ps : List (List IoAns)) {outC outS : Bytes} (hc : ClientSends A D xs outC)
    (ho : ServerSends A D xs outS) (hin : outC <+: scriptBytes sc) (hw : ∀ as ∈ ps, SocketWorks as) (hn : outS.length + sc.chunks.length + 2 * xs.length < (ps.filter takesSome).length) :
    ∃ x ∈ xs, ¬ Trusts D x.server (D.pub x.client.secret) ∧ ∃ k, serverRuns A D xs sc ps = .failed (.unknownPeer (D.pub x.client.secret)) k := by
  rw [serverSends_unique ho (srvStream_spec A D hs)] at hn
  rw [clientSends_unique hc (cliStream_spec A D hs)] at hin
  obtain ⟨G⟩ := srv_goes A D sc.closed (scriptBytes sc) hs (.inr hin)
  have hr := G.runs (sc := sc) rfl ps
  change Ran _ _ _ _ _ _ _ _ _ _ _ _ (serverRuns A D xs sc ps) at hr
  generalize serverRuns A D xs sc ps = x at hr
  cases hr with
  | done h1 h2 => exact absurd h1.1 ht
  | pending h1 h2 h3 h4 h5 => have := h5 trivial (.inl hin); rw [List.countP_eq_length_filter] at this; omega
  | failed h1 h2 =>
    rcases h2 trivial with ⟨as, g1, er, -, g2⟩ | ⟨-, -, g2⟩ | ⟨x, g1, g0, g2⟩
    · exact absurd g2 ((hw as g1).ok er)
    · exact absurd hin g2
    · rw [g0]; exact ⟨x, g1, g2, _, rfl⟩
  | panicked h1 h2 => exact absurd trivial h2

/-- **C80, the end is reported.** A client whose connection is closed before all that the server sends has arrived does not wait for ever: after as many polls in which the socket takes something it has failed, with `UnexpectedEof`, or with
`UnknownPeer` if it does not trust the server in some layer. -/
theorem C80_client_ends (A : Aead) (D : DH) (xs : List Exchange) (hs : ExchangeSized xs) (sc : Script) (hcl : sc.closed = true) (ps : List (List IoAns)) {outC outS : Bytes} (hc : ClientSends A D xs outC)
    (ho : ServerSends A D xs outS) (hin : scriptBytes sc <+: outS) (hne : scriptBytes sc ≠ outS) (hw : ∀ as ∈ ps, SocketWorks as) (hn : outC.length + sc.chunks.length + xs.length < (ps.filter takesSome).length) :
    ∃ e k, clientRuns A D xs sc ps = .failed e k ∧ (e = .io .unexpectedEof ∨ ∃ x ∈ xs, e = .unknownPeer (D.pub x.server.secret) ∧ ¬ Trusts D x.client (D.pub x.server.secret)) := by
  rw [serverSends_unique ho (srvStream_spec A D hs)] at hin hne
  rw [clientSends_unique hc (cliStream_spec A D hs)] at hn
  obtain ⟨G⟩ := cli_goes A D sc.closed (scriptBytes sc) hs (.prefix_right (.inl hin) (tail_stream A D xs))
  have hr := G.runs (sc := sc) rfl ps
  change Ran _ _ _ _ _ _ _ _ _ _ _ _ (clientRuns A D xs sc ps) at hr
  generalize clientRuns A D xs sc ps = x at hr
  cases hr with
  | done h1 h2 =>
    obtain ⟨-, -, rest, h3, -⟩ := h1 (.inl hin)
    have h4 : srvStream A D xs <+: scriptBytes sc := ⟨rest, h3.symm⟩
    exact absurd (hin.eq_of_length_le h4.length_le) hne
  | pending h1 h2 h3 h4 h5 => have := h5 (.inl hin) (.inr ⟨.inl hin, hcl⟩); rw [List.countP_eq_length_filter] at this; omega
  | failed h1 h2 =>
    refine ⟨_, _, rfl, ?_⟩
    rcases h2 (.inl hin) with ⟨as, g1, er, -, g2⟩ | ⟨g, -, -⟩ | g
    · exact absurd g2 ((hw as g1).ok er)
    · exact .inl g
    · exact .inr g
  | panicked h1 h2 => exact absurd (.inl hin) h2

/-- C80, the end is reported, the server. -/
theorem C80_server_ends (A : Aead) (D : DH) (xs : List Exchange) (hs : ExchangeSized xs) (sc : Script) (hcl : sc.closed = true) (ps : List (List IoAns)) {outC outS : Bytes} (hc : ClientSends A D xs outC)
    (ho : ServerSends A D xs outS) (hin : scriptBytes sc <+: outC) (hne : scriptBytes sc ≠ outC) (hw : ∀ as ∈ ps, SocketWorks as) (hn : outS.length + sc.chunks.length + 2 * xs.length < (ps.filter takesSome).length) :
    ∃ e k, serverRuns A D xs sc ps = .failed e k ∧ (e = .io .unexpectedEof ∨ ∃ x ∈ xs, e = .unknownPeer (D.pub x.client.secret) ∧ ¬ Trusts D x.server (D.pub x.client.secret)) := by
  rw [serverSends_unique ho (srvStream_spec A D hs)] at hn
  rw [clientSends_unique hc (cliStream_spec A D hs)] at hin hne
  obtain ⟨G⟩ := srv_goes A D sc.closed (scriptBytes sc) hs (.inl hin)
  have hr := G.runs (sc := sc) rfl ps
  change Ran _ _ _ _ _ _ _ _ _ _ _ _ (serverRuns A D xs sc ps) at hr
  generalize serverRuns A D xs sc ps = x at hr
  cases hr with
  | done h1 h2 =>
    obtain ⟨-, -, rest, h3, -⟩ := h1
    have h4 : cliStream A D xs <+: scriptBytes sc := ⟨rest, h3.symm⟩
    exact absurd (hin.eq_of_length_le h4.length_le) hne
  | pending h1 h2 h3 h4 h5 => have := h5 trivial (.inr hcl); rw [List.countP_eq_length_filter] at this; omega
  | failed h1 h2 =>
    refine ⟨_, _, rfl, ?_⟩
    rcases h2 trivial with ⟨as, g1, er, -, g2⟩ | ⟨g, -, -⟩ | g
    · exact absurd g2 ((hw as g1).ok er)
    · exact .inl g
    · exact .inr g
  | panicked h1 h2 => exact absurd trivial h2

/-! ### The connection after the set-up -/

/-- **C80, what follows.** The halves that the set-up gives are those that C77 starts with: with these keys and numbers. -/
theorem C80_write_sessions (A : Aead) : ∀ {n : Nat} {ls : List Layer} {w : WState n}, WriteHalves n ls w →
    ∃ (ls' : List Layer) (h : ls'.length = n), ls'.map (fun l => (l.key, l.start)) = ls.map (fun l => (l.key, l.start)) ∧ (layersW A n).setBase w {} = h ▸ startW ls' := by
  intro n
  induction n with
  | zero =>
    intro ls w h
    cases ls with
    | nil => exact ⟨[], rfl, rfl, rfl⟩
    | cons l ls => exact h.elim
  | succ n ih =>
    intro ls w h
    cases ls with
    | nil => exact h.elim
    | cons l ls =>
      obtain ⟨ws, t⟩ := w
      obtain ⟨⟨log, h1⟩, h2⟩ := h
      obtain ⟨ls', rfl, g1, g2⟩ := ih h2
      subst h1
      refine ⟨{ key := l.key, start := l.start, log := log } :: ls', rfl, by simp [g1], ?_⟩
      exact Prod.ext rfl g2

/-- C80, what follows, the halves to read. -/
theorem C80_read_sessions : ∀ {n : Nat} {ls : List Layer} {r : RState n} {closed : Bool} {rest : Bytes}, ReadHalves closed rest n ls r → ∃ (sc : Script) (h : ls.length = n), sc.closed = closed ∧ scriptBytes sc = rest ∧ r = h ▸ startR sc ls := by
  intro n
  induction n with
  | zero =>
    intro ls r closed rest h
    cases ls with
    | nil => exact ⟨r, rfl, h.1, h.2, rfl⟩
    | cons l ls => exact h.elim
  | succ n ih =>
    intro ls r closed rest h
    cases ls with
    | nil => exact h.elim
    | cons l ls =>
      obtain ⟨rs, t⟩ := r
      obtain ⟨h1, h2⟩ := h
      obtain ⟨sc, rfl, g0, g1, g2⟩ := ih h2
      subst h1
      exact ⟨sc, rfl, g0, g1, Prod.ext rfl g2⟩

/-! ### Nonces -/

theorem cli_logs (A : Aead) : ∀ (xs : List Exchange) (i : Nat) {w : WState xs.length}, (cliSends A xs).idle i w → ∀ (k : Nat) (L : Layer), (afterPackages i (clientLayers xs))[k]? = some L →
    ∃ lg, (logs xs.length w)[k]? = some lg ∧ lg.length = L.start ∧ ∀ (j : Nat) (e : Encryption), lg[j]? = some e → e.key = L.key ∧ Nonce j e.nonce := by
  intro xs
  induction xs with
  | nil => intro i w _ k L hk; simp [clientLayers, afterPackages] at hk
  | cons x xs ih =>
    rintro i ⟨ws, t⟩ ⟨⟨lg, ⟨new, e1, e2, e3⟩, h1⟩, h2⟩ k L hk
    cases k with
    | zero =>
      simp only [clientLayers, afterPackages, List.map_cons, List.getElem?_cons_zero, Option.some.injEq] at hk
      subst hk
      simp only [List.nil_append] at e1
      subst e1
      dsimp only at h1
      subst h1
      refine ⟨lg, rfl, by simp [e2], fun j e he => ?_⟩
      obtain ⟨g1, g2⟩ := e3 j e he
      exact ⟨g1, by rw [g2]; simpa using nonce_spec j⟩
    | succ k =>
      have hk' : (afterPackages (1 + i) (clientLayers xs))[k]? = some L := by
        simpa [clientLayers, afterPackages, Nat.add_assoc] using hk
      obtain ⟨lg, g1, g2⟩ := ih (1 + i) h2 k L hk'
      exact ⟨lg, by simpa [logs] using g1, g2⟩

theorem srv_logs (A : Aead) (D : DH) : ∀ (xs : List Exchange) (i : Nat) {w : WState xs.length}, (srvSends A D xs).idle i w → ∀ (k : Nat) (x : Exchange) (L : Layer), xs[k]? = some x →
    (afterPackages i (serverLayers xs))[k]? = some L →
    ∃ first lg, (logs xs.length w)[k]? = some (first :: lg) ∧ first.key = D.dh x.server.secret (D.pub x.client.secret) ∧ Nonce 0 first.nonce ∧ lg.length = L.start ∧
      ∀ (j : Nat) (e : Encryption), lg[j]? = some e → e.key = L.key ∧ Nonce j e.nonce := by
  intro xs
  induction xs with
  | nil => intro i w _ k x L hx hk; simp at hx
  | cons x xs ih =>
    rintro i ⟨ws, t⟩ ⟨⟨lg0, new0, f1, f2, f3⟩, ⟨lg, ⟨new, e1, e2, e3⟩, h1⟩, h2⟩ k y L hy hk
    cases k with
    | zero =>
      simp only [List.getElem?_cons_zero, Option.some.injEq] at hy
      subst hy
      simp only [serverLayers, afterPackages, List.map_cons, List.getElem?_cons_zero, Option.some.injEq] at hk
      subst hk
      simp only [List.nil_append] at f1
      subst f1
      dsimp only at h1 e1
      subst h1 e1
      match lg0, f2, f3 with
      | [first], _, f3 =>
        obtain ⟨g1, g2⟩ := f3 0 first rfl
        refine ⟨first, new, rfl, g1, by rw [g2]; exact nonce_spec 0, by simp [e2], fun j e he => ?_⟩
        obtain ⟨g1, g2⟩ := e3 j e he
        exact ⟨g1, by rw [g2]; simpa using nonce_spec j⟩
    | succ k =>
      have hk' : (afterPackages (2 + i) (serverLayers xs))[k]? = some L := by
        simpa [serverLayers, afterPackages, Nat.add_assoc] using hk
      obtain ⟨first, lg, g1, g2⟩ := ih (2 + i) h2 k y L (by simpa using hy) hk'
      exact ⟨first, lg, by simpa [logs] using g1, g2⟩

/-- **C80, nonces.** In the set-up the client encrypts in each layer only with the key of its session, and package number `j` with the nonce for `j`. -/
theorem C80_client_nonces {A : Aead} {D : DH} {xs : List Exchange} {scC scS : Script} {psC psS : List (List IoAns)} (h : Exchanging A D xs scC scS psC psS) {w : WState xs.length} {r : RState xs.length}
    (hd : clientRuns A D xs scC psC = .done w r) (k : Nat) (L : Layer) (hk : (clientLayers xs)[k]? = some L) :
    ∃ lg, (logs xs.length w)[k]? = some lg ∧ lg.length = L.start ∧ ∀ (j : Nat) (e : Encryption), lg[j]? = some e → e.key = L.key ∧ Nonce j e.nonce := by
  obtain ⟨_, hc, hcmp⟩ := client_ran h
  rw [hd] at hc
  cases hc with
  | done h1 h2 => exact cli_logs A xs 0 (h1 hcmp).2.1 k L (by rw [after_zero]; exact hk)

/-- C80, nonces: the server encrypts in each layer one package, number 0, with the secret that both compute, and then only with the key of the session, package number `j` with the nonce for `j`. So it uses no nonce twice with the same
key if the two keys are different (the key of the session is random). -/
theorem C80_server_nonces {A : Aead} {D : DH} {xs : List Exchange} {scC scS : Script} {psC psS : List (List IoAns)} (h : Exchanging A D xs scC scS psC psS) {w : WState xs.length} {r : RState xs.length}
    (hd : serverRuns A D xs scS psS = .done w r) (k : Nat) (x : Exchange) (L : Layer) (hx : xs[k]? = some x) (hk : (serverLayers xs)[k]? = some L) :
    ∃ first lg, (logs xs.length w)[k]? = some (first :: lg) ∧ first.key = D.dh x.server.secret (D.pub x.client.secret) ∧ Nonce 0 first.nonce ∧ lg.length = L.start ∧
      ∀ (j : Nat) (e : Encryption), lg[j]? = some e → e.key = L.key ∧ Nonce j e.nonce := by
  obtain ⟨_, hc⟩ := server_ran h
  rw [hd] at hc
  cases hc with
  | done h1 h2 => exact srv_logs A D xs 0 h1.2.1 k x L hx (by rw [after_zero]; exact hk)

/-! ### Examples -/

def exLayer (k : UInt8) : Exchange :=
  { client := { secret := [k, 1], knownPeers := [toyDH.pub [k, 2]] }, server := { secret := [k, 2], knownPeers := [toyDH.pub [k, 1]] }, fresh := List.replicate 32 k }

def exLayers : List Exchange := [exLayer 5, exLayer 9]

/-- The socket is good for anything. -/
def exPolls (n : Nat) : List (List IoAns) := List.replicate n [.ready 7, .ready 100, .ready 100, .ready 100, .ready 100, .ready 100, .ready 100, .ready 100]

def exScript (bs : Bytes) (cut : Nat) : Script :=
  { chunks := (match bs.take cut with | [] => [] | b :: bs => [.data b bs]) ++ [.pending] ++ (match bs.drop cut with | [] => [] | b :: bs => [.data b bs]), closed := false }

def exOutC : Bytes := cliStream toyAead toyDH exLayers
def exOutS : Bytes := srvStream toyAead toyDH exLayers

def exToClient : Script := exScript exOutS 10
def exToServer : Script := exScript exOutC 40

/-- The hypotheses of C80 can be met: two layers, both sides in pieces and with pauses, and both are done. -/
example : Exchanging toyAead toyDH exLayers exToClient exToServer (exPolls 9) (exPolls 9) ∧ (clientRuns toyAead toyDH exLayers exToClient (exPolls 9)).isDone = true ∧
    (serverRuns toyAead toyDH exLayers exToServer (exPolls 9)).isDone = true ∧ exOutC.length = 84 ∧ exOutS.length = 208 := by
  refine ⟨⟨⟨?_, by decide⟩, .inl ?_, .inl ?_⟩, ?_, ?_, ?_, ?_⟩
  · intro x hx
    simp only [exLayers, List.mem_cons, List.not_mem_nil, or_false] at hx
    rcases hx with rfl | rfl <;> rfl
  all_goals decide +kernel

/-- So can those of the progress. -/
example : ClientAdmits toyDH exLayers ∧ ServerAdmits toyDH exLayers ∧ (∀ as ∈ exPolls 99, Willing as) := by
  refine ⟨?_, ?_, ?_⟩
  · intro x hx
    simp only [exLayers, List.mem_cons, List.not_mem_nil, or_false] at hx
    rcases hx with rfl | rfl <;> exact .inr (by decide)
  · intro x hx
    simp only [exLayers, List.mem_cons, List.not_mem_nil, or_false] at hx
    rcases hx with rfl | rfl <;> exact .inr (by decide)
  · intro as h
    rw [(List.mem_replicate.1 h).2]
    exact ⟨⟨_, _, rfl⟩, by decide, fun e => by simp⟩

/-- A server that does not know the client: neither side is done. -/
def exStranger : List Exchange := [{ exLayer 5 with server := { secret := [5, 2], knownPeers := [] } }, exLayer 9]

example : (∀ e k, serverRuns toyAead toyDH exStranger exToServer (exPolls 9) = .failed e k → e = .unknownPeer (toyDH.pub [5, 1])) ∧
    (serverRuns toyAead toyDH exStranger exToServer (exPolls 9)).isDone = false ∧ serverSent toyAead toyDH exStranger exToServer (exPolls 9) = exOutS.take 84 := by
  refine ⟨?_, by decide +kernel, by decide +kernel⟩
  have h : (match serverRuns toyAead toyDH exStranger exToServer (exPolls 9) with | .failed (.unknownPeer p) _ => decide (p = toyDH.pub [5, 1]) | _ => false) = true := by decide +kernel
  intro e k he
  rw [he] at h
  cases e <;> first | cases h | (simp only [decide_eq_true_eq] at h; rw [h])

end Bromine.Props
