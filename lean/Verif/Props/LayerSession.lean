import Verif.Lemmas.LayerSession
import Verif.Props.LayerPeer
/-
C82: a connection with encrypted layers, from the first byte of its set-up to the last event.
-/
namespace Bromine.Props
open Bromine CryptIO Layers Spec
open Bromine.Handshake (DH Keys toyDH)

/-! ### After the set-up -/

theorem halves_idle (A : Aead) : ∀ {n : Nat} {ls : List Layer} {w : WState n}, WriteHalves n ls w →
    ∃ (ls' : List Layer) (h : n = ls'.length), ls'.map (fun l => (l.key, l.start)) = ls.map (fun l => (l.key, l.start)) ∧ (sends A ls').idle 0 (h ▸ w) := by
  intro n
  induction n with
  | zero =>
    intro ls w h
    cases ls with
    | nil => exact ⟨[], rfl, rfl, trivial⟩
    | cons l ls => exact h.elim
  | succ n ih =>
    intro ls w h
    cases ls with
    | nil => exact h.elim
    | cons l ls =>
      obtain ⟨ws, t⟩ := w
      obtain ⟨⟨log, h1⟩, h2⟩ := h
      obtain ⟨ls', rfl, g1, g2⟩ := ih h2
      exact ⟨{ key := l.key, start := l.start, log := log } :: ls', rfl, by simp [g1], ⟨log, ⟨[], by simp, rfl, by simp⟩, by simpa [encAt] using h1⟩, g2⟩

theorem nested_congr {A : Aead} {i : Nat} : ∀ {ls ls' : List Layer} {p b : Bytes}, ls'.map (fun l => (l.key, l.start)) = ls.map (fun l => (l.key, l.start)) → (Nested A ls' i p b ↔ Nested A ls i p b) := by
  intro ls
  induction ls with
  | nil => intro ls' p b h; simp only [List.map_nil, List.map_eq_nil_iff] at h; subst h; rfl
  | cons l ls ih =>
    intro ls' p b h
    cases ls' with
    | nil => simp at h
    | cons l' ls' =>
      simp only [List.map_cons, List.cons.injEq, Prod.mk.injEq] at h
      obtain ⟨⟨h1, h2⟩, h3⟩ := h
      simp only [Nested, h1, h2, ih h3]

theorem nestedEvents_congr {A : Aead} {ls ls' : List Layer} (h : ls'.map (fun l => (l.key, l.start)) = ls.map (fun l => (l.key, l.start))) : ∀ {es : List Event} {i : Nat} {b : Bytes},
    NestedEvents A ls' i es b ↔ NestedEvents A ls i es b := by
  intro es
  induction es with
  | nil => intro i b; rfl
  | cons e es ih => intro i b; simp only [NestedEvents, nested_congr h, ih]

theorem nestedEvents_take {A : Aead} {ls : List Layer} : ∀ {es : List Event} {i : Nat} {all : Bytes}, NestedEvents A ls i es all → ∀ k, ∃ m t, NestedEvents A ls i (es.take k) m ∧ m ++ t = all := by
  intro es
  induction es with
  | nil => intro i all h k; exact ⟨all, [], by simpa using h, by simp⟩
  | cons e es ih =>
    intro i all h k
    obtain ⟨frame, pkg, rest, h1, h2, h3, h4⟩ := h
    cases k with
    | zero => exact ⟨[], all, rfl, rfl⟩
    | succ k =>
      obtain ⟨m, t, g1, g2⟩ := ih h4 k
      exact ⟨pkg ++ m, t, ⟨frame, pkg, m, h1, h2, rfl, g1⟩, by rw [h3, List.append_assoc, g2]⟩

/-- **C82, what is emitted.** Whatever the write halves have carried before (see C80 and C81 for what a set-up leaves): events that are emitted over them go to the wire, in the order in which their emits got the connection, after what is
there already, each in one package of each layer, with the numbers that the layers are at. Whatever the socket answers, what is on the wire is a prefix of that, and all of it if no emit is under way or has failed. No emit panics, and one
fails only with an error of the socket, or with `WriteZero` if it takes nothing. -/
theorem C82_emitted (A : Aead) {n : Nat} {ls : List Layer} {w : WState n} (hw : WriteHalves n ls w) (hn : 0 < n) {ops : List EmitOp} {s : Emitter n} (hr : emits A { w := w } ops = some s)
    (hc : ∀ e ∈ s.log, Fits e ∧ frameSize e + 20 * (n - 1) + 16 < 2 ^ 32) :
    ∃ all, NestedEvents A ls 0 s.log all ∧ s.wire A <+: ((layersW A n).base w).wire ++ all ∧ (s.fate = .going → s.cur = none → s.wire A = ((layersW A n).base w).wire ++ all) ∧ s.fate ≠ .panicked ∧
      ∀ e, s.fate = .failed e → ∃ as, .poll as ∈ ops ∧ (.fail e ∈ as ∨ (e = .writeZero ∧ .ready 0 ∈ as)) := by
  obtain ⟨ls', rfl, h1, h2⟩ := halves_idle A hw
  cases ls' with
  | nil => simp at hn
  | cons l ls' =>
    have h0 : EInv A l ls' ((layersW A (ls'.length + 1)).base w).wire [] { w := w } :=
      ⟨fun _ _ => ⟨h2, by simp [wraps, Emitter.wire]⟩, by simp, by simp [wraps, Emitter.wire], by simp, by simp⟩
    have hi := einv_run A l ls' _ ops [] h0 hr (by simpa using hc)
    refine ⟨_, (nestedEvents_congr h1).1 (nestedEvents_wraps A l ls' s.log 0 (by simpa using hc)), hi.onWire, fun g1 g2 => (hi.free g1 g2).2, hi.calm, fun e he => ?_⟩
    rcases hi.cause e he with h | ⟨h, h'⟩
    · obtain ⟨as, g1, g2⟩ := mem_answersOf (by simpa using h)
      exact ⟨as, g1, .inl g2⟩
    · obtain ⟨as, g1, g2⟩ := mem_answersOf (by simpa using h')
      exact ⟨as, g1, .inr ⟨h, g2⟩⟩

/-- C82, a failed emit lets go of the connection: nothing is under way after it. -/
theorem C82_released (A : Aead) {n : Nat} : ∀ {ops : List EmitOp} {s s' : Emitter n}, (s.fate ≠ .going → s.cur = none) → emits A s ops = some s' → s'.fate ≠ .going → s'.cur = none := by
  intro ops
  induction ops with
  | nil => intro s s' h hr; cases hr; exact h
  | cons o ops ih =>
    intro s s' h hr
    simp only [emits, Option.bind_eq_some_iff] at hr
    obtain ⟨s1, h1, h2⟩ := hr
    refine ih ?_ h2
    cases o with
    | emit e =>
      simp only [emitStep] at h1
      split at h1
      · rename_i hg
        cases h1
        exact fun h => absurd hg.1 h
      · cases h1
    | poll as =>
      simp only [emitStep] at h1
      split at h1
      · rename_i hg _
        split at h1 <;> cases h1
        · exact fun _ => rfl
        · exact fun h => absurd hg h
        · exact fun _ => rfl
        · exact fun _ => rfl
      · cases h1

/-- **C82, progress.** An emit that is under way ends with success if it is polled often enough, and the socket takes at least one byte at each poll and does not fail: as many polls as bytes are missing on the wire, and one. Nothing else than
these polls is needed, so the next emit gets the connection. -/
theorem C82_finishes (A : Aead) {n : Nat} {ls : List Layer} {w : WState n} (hw : WriteHalves n ls w) (hn : 0 < n) {ops : List EmitOp} {s : Emitter n} (hr : emits A { w := w } ops = some s)
    (hc : ∀ e ∈ s.log, Fits e ∧ frameSize e + 20 * (n - 1) + 16 < 2 ^ 32) (hg : s.fate = .going) {all : Bytes} (hall : NestedEvents A ls 0 s.log all) (ps : List (List IoAns)) (hps : ∀ as ∈ ps, Willing as)
    (hl : (((layersW A n).base w).wire ++ all).length < (s.wire A).length + ps.length) :
    ∃ k, k ≤ ps.length ∧ ∃ s', emits A s ((ps.take k).map .poll) = some s' ∧ s'.log = s.log ∧ s'.fate = .going ∧ s'.cur = none ∧ s'.wire A = ((layersW A n).base w).wire ++ all := by
  obtain ⟨ls', rfl, h1, h2⟩ := halves_idle A hw
  cases ls' with
  | nil => simp at hn
  | cons l ls' =>
    have h0 : EInv A l ls' ((layersW A (ls'.length + 1)).base w).wire [] { w := w } :=
      ⟨fun _ _ => ⟨h2, by simp [wraps, Emitter.wire]⟩, by simp, by simp [wraps, Emitter.wire], by simp, by simp⟩
    have hc' : ∀ e ∈ s.log, Carry ls' e := by simpa using hc
    have hi := einv_run A l ls' _ ops [] h0 hr hc'
    have ha : all = wraps A (l :: ls') 0 s.log := nestedEvents_unique ((nestedEvents_congr h1).2 hall) (nestedEvents_wraps A l ls' s.log 0 hc')
    subst ha
    have hF : ∀ as ∈ ps, HeadReady as ∧ ∀ e, ¬ Fails as e := by
      intro as h
      obtain ⟨g1, g2, g3⟩ := hps as h
      refine ⟨g1, ?_⟩
      rintro e (h | ⟨-, h⟩)
      · exact g3 e h
      · exact g2 h
    obtain ⟨k, g1, s', g2, g3, g4, g5⟩ := emit_finishes A l ls' _ ps _ hi hg hc' hF hl
    have hi' := einv_run A l ls' _ _ _ hi g2 (by rw [g3]; exact hc')
    refine ⟨k, g1, s', g2, g3, g4, g5, ?_⟩
    have := (hi'.free g4 g5).2
    rw [g3] at this
    exact this

/-- **C82, what is read.** The read halves that a set-up leaves, and of the packages of some events a prefix that is still to be read: the receive loop reads exactly the events whose packages are complete, in order, and then waits, or
sees the end of the stream if the connection is closed. -/
theorem C82_read (A : Aead) {n : Nat} {ls : List Layer} {r : RState n} {closed : Bool} {rest : Bytes} (hr : ReadHalves closed rest n ls r) (hn : 0 < n) (es : List Event)
    (hc : ∀ e ∈ es, Fits e ∧ frameSize e + 20 * (n - 1) + 16 < 2 ^ 32) {all : Bytes} (hall : NestedEvents A ls 0 es all) (hp : rest <+: all) (checks : Bool) (fuel : Nat) (hf : es.length < fuel) :
    ∃ k done, k ≤ es.length ∧ readLoop (source (layersR A n)) checks fuel r = (es.take k, if closed then .err (.io .unexpectedEof) else .hang) ∧ NestedEvents A ls 0 (es.take k) done ∧ done <+: rest ∧
      (∀ more, k < es.length → NestedEvents A ls 0 (es.take (k + 1)) more → ¬ more <+: rest) := by
  obtain ⟨sc, rfl, rfl, rfl, rfl⟩ := C80_read_sessions hr
  cases ls with
  | nil => simp at hn
  | cons l ls => exact C77_peer_reads A l ls es (fun e he => by simpa [Link.Kind.carries, Carry] using hc e he) hall checks sc hp fuel hf

/-! ### From the first byte to the last event -/

section
variable {A : Aead} {D : DH} {xs : List Exchange} {scC scS : Script} {psC psS : List (List IoAns)}

/-- **C82, client to server.** Client and server set up any number of encrypted layers over one connection, and then the client emits events: at any time when it is done with its own part, the server may still be setting up, or not. Whatever
the sockets answer to either side and however the bytes arrive: the server's receive loop reads exactly those events whose packages have arrived completely, in the order in which their emits got the connection, and then waits, or sees the end of
the stream if the connection is closed. Nothing of the set-up is taken for an event, and no event for a part of the set-up. -/
theorem C82_to_server (h : Exchanging A D xs scC scS psC psS) (hx : xs ≠ []) {w w' : WState xs.length} {r r' : RState xs.length} (hC : clientRuns A D xs scC psC = .done w r)
    (hS : serverRuns A D xs scS psS = .done w' r') {ops : List EmitOp} {s : Emitter xs.length} (hr : emits A { w := w } ops = some s)
    (hc : ∀ e ∈ s.log, Fits e ∧ frameSize e + 20 * (xs.length - 1) + 16 < 2 ^ 32) (hin : scriptBytes scS <+: s.wire A) (checks : Bool) (fuel : Nat) (hf : s.log.length < fuel) :
    ∃ outC k done, ClientSends A D xs outC ∧ k ≤ s.log.length ∧ readLoop (source (layersR A xs.length)) checks fuel r' = (s.log.take k, if scS.closed then .err (.io .unexpectedEof) else .hang) ∧
      NestedEvents A (clientLayers xs) 0 (s.log.take k) done ∧ outC ++ done <+: scriptBytes scS ∧
      (∀ more, k < s.log.length → NestedEvents A (clientLayers xs) 0 (s.log.take (k + 1)) more → ¬ outC ++ more <+: scriptBytes scS) ∧
      (scriptBytes scS = s.wire A → s.fate = .going → s.cur = none → k = s.log.length) := by
  have hn : 0 < xs.length := List.length_pos_iff.2 hx
  obtain ⟨outC, outS, hoc, -, -, -, hdc, -⟩ := C80_wire h
  have hsent : ((layersW A xs.length).base w).wire = outC := by
    have := hdc (by rw [hC]; rfl)
    unfold clientSent at this
    rw [hC] at this
    exact this
  obtain ⟨-, hw, -⟩ := C80_client_done h hC
  obtain ⟨-, -, outC', rest, hoc', hrest, hrd⟩ := C80_server_done h hS
  have e := clientSends_unique hoc' hoc
  subst e
  obtain ⟨all, g1, g2, g3, -⟩ := C82_emitted A hw hn hr hc
  rw [hsent] at g2 g3
  have hp : rest <+: all := by
    have := hin.trans g2
    rw [hrest] at this
    exact (List.prefix_append_right_inj _).1 this
  obtain ⟨k, done, f1, f2, f3, f4, f5⟩ := C82_read A hrd hn s.log hc g1 hp checks fuel hf
  refine ⟨_, k, done, hoc, f1, f2, f3, ?_, ?_, ?_⟩
  · rw [hrest]; exact (List.prefix_append_right_inj _).2 f4
  · intro more hk hm hh
    rw [hrest] at hh
    exact f5 more hk hm ((List.prefix_append_right_inj _).1 hh)
  · intro h1 h2 h3
    rcases Nat.lt_or_ge k s.log.length with hk | hk
    · exfalso
      have hall : all = rest := by
        have := g3 h2 h3
        rw [← h1, hrest] at this
        exact (List.append_cancel_left this).symm
      subst hall
      obtain ⟨m, t, hm, hmt⟩ := nestedEvents_take g1 (k + 1)
      exact f5 m hk hm ⟨t, hmt⟩
    · omega

/-- **C82, server to client.** The same in the other direction: the server emits when it is done, although the client may still be waiting for the last key. -/
theorem C82_to_client (h : Exchanging A D xs scC scS psC psS) (hx : xs ≠ []) {w w' : WState xs.length} {r r' : RState xs.length} (hC : clientRuns A D xs scC psC = .done w r)
    (hS : serverRuns A D xs scS psS = .done w' r') {ops : List EmitOp} {s : Emitter xs.length} (hr : emits A { w := w' } ops = some s)
    (hc : ∀ e ∈ s.log, Fits e ∧ frameSize e + 20 * (xs.length - 1) + 16 < 2 ^ 32) (hin : scriptBytes scC <+: s.wire A) (checks : Bool) (fuel : Nat) (hf : s.log.length < fuel) :
    ∃ outS k done, ServerSends A D xs outS ∧ k ≤ s.log.length ∧ readLoop (source (layersR A xs.length)) checks fuel r = (s.log.take k, if scC.closed then .err (.io .unexpectedEof) else .hang) ∧
      NestedEvents A (serverLayers xs) 0 (s.log.take k) done ∧ outS ++ done <+: scriptBytes scC ∧
      (∀ more, k < s.log.length → NestedEvents A (serverLayers xs) 0 (s.log.take (k + 1)) more → ¬ outS ++ more <+: scriptBytes scC) ∧
      (scriptBytes scC = s.wire A → s.fate = .going → s.cur = none → k = s.log.length) := by
  have hn : 0 < xs.length := List.length_pos_iff.2 hx
  obtain ⟨outC, outS, -, hos, -, -, -, hds⟩ := C80_wire h
  have hsent : ((layersW A xs.length).base w').wire = outS := by
    have := hds (by rw [hS]; rfl)
    unfold serverSent at this
    rw [hS] at this
    exact this
  obtain ⟨-, hw, -⟩ := C80_server_done h hS
  obtain ⟨-, -, outS', rest, hos', hrest, hrd⟩ := C80_client_done h hC
  have e := serverSends_unique hos' hos
  subst e
  obtain ⟨all, g1, g2, g3, -⟩ := C82_emitted A hw hn hr hc
  rw [hsent] at g2 g3
  have hp : rest <+: all := by
    have := hin.trans g2
    rw [hrest] at this
    exact (List.prefix_append_right_inj _).1 this
  obtain ⟨k, done, f1, f2, f3, f4, f5⟩ := C82_read A hrd hn s.log hc g1 hp checks fuel hf
  refine ⟨_, k, done, hos, f1, f2, f3, ?_, ?_, ?_⟩
  · rw [hrest]; exact (List.prefix_append_right_inj _).2 f4
  · intro more hk hm hh
    rw [hrest] at hh
    exact f5 more hk hm ((List.prefix_append_right_inj _).1 hh)
  · intro h1 h2 h3
    rcases Nat.lt_or_ge k s.log.length with hk | hk
    · exfalso
      have hall : all = rest := by
        have := g3 h2 h3
        rw [← h1, hrest] at this
        exact (List.append_cancel_left this).symm
      subst hall
      obtain ⟨m, t, hm, hmt⟩ := nestedEvents_take g1 (k + 1)
      exact f5 m hk hm ⟨t, hmt⟩
    · omega

end

/-! ### Examples -/

/-- What the client emits: two events, the socket takes a few bytes at a time. -/
def exEmits : List EmitOp := [.emit ev1, .poll [.ready 30, .pending], .poll [.ready 1000, .ready 1000, .ready 1], .emit ev2, .poll [.ready 50, .pending]]

/-- The emitter after that. -/
def exSession : Option (Emitter 2) := match clientRuns toyAead toyDH exLayers exToClient (exPolls 9) with | .done w _ => emits toyAead { w := w } exEmits | _ => none

/-- All that the server receives: the set-up, the first event, and a part of the second, cut in the middle of the set-up. -/
def exAllToServer : Script := exScript ((exSession.map fun s => s.wire toyAead).getD []) 40

/-- The hypotheses of C82 can be met: two layers, both sides are done, the client has emitted one event and is at the second, the server gets all of it in pieces, and reads the first event. -/
example : Exchanging toyAead toyDH exLayers exToClient exAllToServer (exPolls 9) (exPolls 9) ∧ (exSession.map fun s => decide (s.log = [ev1, ev2] ∧ s.fate = .going ∧ s.cur.isSome ∧ scriptBytes exAllToServer = s.wire toyAead)) = some true ∧
    (match serverRuns toyAead toyDH exLayers exAllToServer (exPolls 9) with | .done _ r => decide ((readLoop (source (layersR toyAead 2)) true 5 r).1 = [ev1]) | _ => false) = true := by
  refine ⟨⟨⟨?_, by decide⟩, .inl ?_, .inr ⟨?_, ?_⟩⟩, ?_, ?_⟩
  · intro x hx
    simp only [exLayers, List.mem_cons, List.not_mem_nil, or_false] at hx
    rcases hx with rfl | rfl <;> rfl
  all_goals decide +kernel

example : ∀ e ∈ [ev1, ev2], Fits e ∧ frameSize e + 20 * (exLayers.length - 1) + 16 < 2 ^ 32 := by
  intro e he
  simp only [List.mem_cons, List.not_mem_nil, or_false] at he
  rcases he with rfl | rfl <;> exact ⟨by decide +kernel, by decide +kernel⟩

/-- A socket that fails in the middle of an event. -/
example : (match clientRuns toyAead toyDH exLayers exToClient (exPolls 9) with
    | .done w _ => (emits toyAead { w := w } [.emit ev1, .poll [.ready 30, .fail .other]]).map fun s => decide (s.fate = .failed .other ∧ (s.wire toyAead).length = 84 + 30)
    | _ => none) = some true := by decide +kernel

end Bromine.Props
