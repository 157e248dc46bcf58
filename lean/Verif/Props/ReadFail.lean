import Verif.Lemmas.ReadFail
import Verif.Lemmas.ReadSocket
import Verif.Props.LayerDrop
import Verif.Props.LayerFail
import Verif.Props.Frame
/-
C90: reading from a transport that fails, with any number of encrypted layers (none: a plain connection).
-/
namespace Bromine.Props
open Bromine Bromine.Spec Bromine.CryptIO Bromine.Layers

section
variable (A : Aead) (e : IoErr) (after : Script) (cs : List Chunk) (checks : Bool)

/-- **C90, an error is as an end.** Any number of layers, any bytes, also garbage: if the transport fails after it has given certain answers, then the connection reads the same events as if the stream had ended there, or as if nothing
came any more. If the connection then would have waited for more, it ends with the error of the transport, no other; if it ends for another reason (a frame or a package that is not valid), that is the same reason. -/
theorem C90_read (ls : List Layer) (fuel : Nat) :
    let fails := readLoop (source (layersF A ls.length)) checks fuel (startF { chunks := cs, err := some e, after := after } ls)
    let waits := readLoop (source (layersR A ls.length)) checks fuel (startR { chunks := cs, closed := false } ls)
    let ends := readLoop (source (layersR A ls.length)) checks fuel (startR { chunks := cs, closed := true } ls)
    fails.1 = waits.1 ∧ fails.1 = ends.1 ∧
      ((waits.2 = .hang ∧ ends.2 = .err (.io .unexpectedEof) ∧ fails.2 = .err (.io e)) ∨ (fails.2 = waits.2 ∧ fails.2 = ends.2)) := by
  intro fails waits ends
  rcases (layersTrio A e after ls.length).loop checks fuel (trio_start A e after cs ls) with ⟨h1, h2⟩ | ⟨es, h1, h2, h3⟩
  · exact ⟨(congrArg Prod.fst h1).trans (congrArg Prod.fst h2).symm, congrArg Prod.fst h1, .inr ⟨(congrArg Prod.snd h1).trans (congrArg Prod.snd h2).symm, congrArg Prod.snd h1⟩⟩
  · exact ⟨(congrArg Prod.fst h3).trans (congrArg Prod.fst h1).symm, (congrArg Prod.fst h3).trans (congrArg Prod.fst h2).symm, .inl ⟨congrArg Prod.snd h1, congrArg Prod.snd h2, congrArg Prod.snd h3⟩⟩

/-- **C90, nothing after the error.** Whatever the transport would answer after the error, also if it has recovered and more bytes come: the connection does not read it. -/
theorem C90_after (ls : List Layer) (after' : Script) (fuel : Nat) :
    readLoop (source (layersF A ls.length)) checks fuel (startF { chunks := cs, err := some e, after := after } ls) =
      readLoop (source (layersF A ls.length)) checks fuel (startF { chunks := cs, err := some e, after := after' } ls) := by
  rcases (layersTrio A e after ls.length).loop checks fuel (trio_start A e after cs ls) with ⟨h1, h2⟩ | ⟨es, h1, h2, h3⟩ <;>
    rcases (layersTrio A e after' ls.length).loop checks fuel (trio_start A e after' cs ls) with ⟨g1, g2⟩ | ⟨es', g1, g2, g3⟩
  · rw [h1, g1]
  · rw [g1, g2] at h2; cases h2
  · rw [h1, h2] at g2; cases g2
  · rw [h3, g3]; rw [h2] at g2; cases g2; rfl

/-- If the connection would have read certain events and then waited, or seen the end, it reads these events and then the error. -/
theorem readFails_of (ls : List Layer) (fuel : Nat) {es : List Event}
    (h : ∀ closed, readLoop (source (layersR A ls.length)) checks fuel (startR { chunks := cs, closed := closed } ls) = (es, if closed then .err (.io .unexpectedEof) else .hang)) :
    readLoop (source (layersF A ls.length)) checks fuel (startF { chunks := cs, err := some e, after := after } ls) = (es, .err (.io e)) := by
  have h0 := h false
  have h1 := h true
  simp only [Bool.false_eq_true, if_false] at h0
  simp only [if_true] at h1
  rcases (layersTrio A e after ls.length).loop checks fuel (trio_start A e after cs ls) with ⟨g1, g2⟩ | ⟨es', g1, g2, g3⟩
  · rw [h0, h1] at g2; cases g2
  · rw [g3]; rw [h0] at g1; cases g1; rfl

/-- **C90, a plain connection.** Events back to back, and the transport fails somewhere in the frame of the next (or between two frames): exactly the events whose frames are complete are read, in order, then the connection ends
with the error. -/
theorem C90_plain (es : List Event) (frames : List Bytes) (hes : ∀ e ∈ es, Fits e ∧ Allocatable e) (hfr : es.map Event.intoBytes = frames.map Outcome.ok)
    (next : Event) (hnext : Fits next ∧ Allocatable next) (p q : Bytes) (hp : next.intoBytes = .ok (p ++ q)) (hq : q ≠ [])
    (hcs : (cs.map Chunk.bytes).flatten = frames.flatten ++ p) (fuel : Nat) (hfuel : es.length < fuel) :
    readLoop (source socketF) checks fuel { chunks := cs, err := some e, after := after } = (es, .err (.io e)) := by
  refine readFails_of toyAead e after cs checks [] fuel fun closed => ?_
  show readLoop (source socketR) checks fuel { chunks := cs, closed := closed } = _
  rw [source_socket]
  exact C02_back_to_back checks es frames hes hfr next hnext p q hp hq { chunks := cs, closed := closed } hcs fuel hfuel

end

section
variable {A : Aead} {l : Layer} {ls : List Layer} {checks : Bool}

/-- **C90, encrypted layers.** The bytes that come from the socket before it fails are a prefix of what the other side has put on the wire, however it cuts them, and whatever emits were dropped there: the peer reads exactly the
events of the packages that have come completely, in order, then its connection ends with the error. -/
theorem C90_peer_reads {s : LState (l :: ls).length} {em rd : List Event} (h : Link.Hist ((Link.DropKind.droppingLayers A l ls).link checks) s em rd)
    (hc : ∀ e ∈ em, (Link.DropKind.droppingLayers A l ls).carries e) (checks' : Bool) (cs : List Chunk) (hcs : (cs.map Chunk.bytes).flatten <+: s.wire A) (e : IoErr) (after : Script) (fuel : Nat) (hf : em.length < fuel) :
    ∃ (packages : List (List Event)) (k : Nat) (all done : Bytes), NestedGroups A (l :: ls) 0 packages all ∧ s.wire A <+: all ∧ packages.flatten.Sublist em ∧
      readLoop (source (layersF A (l :: ls).length)) checks' fuel (startF { chunks := cs, err := some e, after := after } (l :: ls)) = ((packages.take k).flatten, .err (.io e)) ∧
      NestedGroups A (l :: ls) 0 (packages.take k) done ∧ done <+: (cs.map Chunk.bytes).flatten ∧
      (∀ more, k < packages.length → NestedGroups A (l :: ls) 0 (packages.take (k + 1)) more → ¬ more <+: (cs.map Chunk.bytes).flatten) := by
  obtain ⟨packages, k, all, done, h1, h2, h3, h4, h5, h6, h7⟩ := C86_peer_reads h hc checks' { chunks := cs, closed := false } hcs fuel hf
  obtain ⟨_, _, _, _, _, _, _, g4, _, _, _⟩ := C86_peer_reads h hc checks' { chunks := cs, closed := true } hcs fuel hf
  refine ⟨packages, k, all, done, h1, h2, h3, ?_, h5, h6, h7⟩
  simp only [Bool.false_eq_true, if_false] at h4
  simp only [if_true] at g4
  rcases (layersTrio A e after (l :: ls).length).loop checks' fuel (trio_start A e after cs (l :: ls)) with ⟨a1, a2⟩ | ⟨es', a1, a2, a3⟩
  · rw [h4, g4] at a2; cases congrArg Prod.snd a2
  · rw [a3]; rw [h4] at a1; cases a1; rfl

/-- (A user would expect an error again, or the end of the stream.) A poll of the read half of an encrypted stream, over whatever transport, that has returned an error is the last one: the next one panics. -/
theorem C90_violated_again {ρ : Type} (R : ReadT ρ) (A : Aead) (rs : ReadStream) (r : ρ) (want : Nat) {er : IoErr} {bs : Bytes} {rs' : ReadStream} {r' : ρ}
    (h : (encryptedR R A).pollRead (rs, r) want = (.ready (.error er), bs, rs', r')) (want' : Nat) : ((encryptedR R A).pollRead (rs', r') want').1 = .panic := by
  have key : ∀ (rs : ReadStream) (want : Nat), Layers.pollFutRead R A rs r want = (.ready (.error er), bs, rs', r') ∨ (∃ b, Layers.pollFutRead R A rs r want = (.ready (.error er), b, rs', r')) → rs'.fut = some .finished := by
    intro rs want hx
    obtain ⟨b, hx⟩ : ∃ b, Layers.pollFutRead R A rs r want = (.ready (.error er), b, rs', r') := by
      rcases hx with hx | hx
      · exact ⟨_, hx⟩
      · exact hx
    unfold Layers.pollFutRead at hx
    split at hx
    · split at hx
      · cases hx
      · cases hx; rfl
      · cases hx
      · split at hx
        · cases hx; rfl
        · dsimp only at hx
          split at hx <;> cases hx
    · cases hx
  have hfin : rs'.fut = some .finished := by
    simp only [encryptedR, pollRead] at h
    split at h
    · exact key _ _ (.inl h)
    · split at h
      · generalize hx : Layers.pollFutRead R A _ r _ = x at h
        obtain ⟨p, b, s, r0⟩ := x
        simp only [Prod.mk.injEq] at h
        obtain ⟨rfl, -, rfl, rfl⟩ := h
        exact key _ _ (.inr ⟨_, hx⟩)
      · cases h
  simp only [encryptedR, pollRead, hfin, Layers.pollFutRead]

end

/-! ### Cases -/

/-- Two layers. The first event and 20 bytes of the package of the second come, with a pause; then the transport fails, and would go on. The first event is read. -/
def failChunks : List Chunk :=
  match dueFail 0 ev1 ++ (dueFail 1 ev2).take 20 with
  | [] => []
  | b :: bs => [.data b (bs.take 30), .pending] ++ (match bs.drop 30 with | [] => [] | b :: bs => [.data b bs])

def recovers : Script :=
  match (dueFail 1 ev2).drop 20 with
  | [] => { chunks := [], closed := true }
  | b :: bs => { chunks := [.data b bs], closed := true }

set_option maxRecDepth 10000 in
example : (failChunks.map Chunk.bytes).flatten = dueFail 0 ev1 ++ (dueFail 1 ev2).take 20 ∧
    (readLoop (source (layersF toyAead failLayers.length)) true 5 (startF { chunks := failChunks, err := some .other, after := recovers } failLayers) = ([ev1], .err (.io .other))) := by
  decide +kernel

/-- Without the error the second event would be read, too. -/
example : (readLoop (source (layersR toyAead failLayers.length)) true 5 (startR { chunks := failChunks ++ recovers.chunks, closed := true } failLayers)) = ([ev1, ev2], .err (.io .unexpectedEof)) := by
  decide +kernel

/-- C90, plain: the first event and 5 bytes of the second. -/
example : ∃ p q, ev2.intoBytes = .ok (p ++ q) ∧ q ≠ [] ∧ p.length = 5 ∧ ∃ f cs, ev1.intoBytes = .ok f ∧ (cs.map Chunk.bytes).flatten = [f].flatten ++ p ∧
    readLoop (source socketF) true 2 { chunks := cs, err := some .other, after := recovers } = ([ev1], .err (.io .other)) := by
  obtain ⟨f, hf⟩ : ∃ f, ev1.intoBytes = .ok f := ⟨_, rfl⟩
  obtain ⟨g, hg⟩ : ∃ g, ev2.intoBytes = .ok g := ⟨_, rfl⟩
  have h5 : 5 < g.length := by
    have : (ev2.intoBytes.map fun g => decide (5 < g.length)) = .ok true := by decide +kernel
    rw [hg] at this
    simpa [Outcome.map, Outcome.bind] using this
  have hne : g.drop 5 ≠ [] := by intro h; have := congrArg List.length h; simp at this; omega
  obtain ⟨cs, hcs⟩ : ∃ cs : List Chunk, (cs.map Chunk.bytes).flatten = [f].flatten ++ g.take 5 := by
    refine ⟨([f].flatten ++ g.take 5).map fun b => .data b [], ?_⟩
    generalize [f].flatten ++ g.take 5 = x
    induction x with
    | nil => rfl
    | cons b x ih => simp only [List.map_cons, List.flatten_cons, ih]; rfl
  refine ⟨g.take 5, g.drop 5, by rw [List.take_append_drop]; exact hg, hne, by rw [List.length_take]; omega, f, cs, hf, hcs, ?_⟩
  exact C90_plain _ _ cs true [ev1] [f] (by intro e he; rw [List.mem_singleton.1 he]; exact ⟨by decide, by decide⟩) (by simp [hf]) ev2 ⟨by decide, by decide⟩ _ _
    (by rw [List.take_append_drop]; exact hg) hne hcs 2 (by decide)

/-- The panic of C90: a poll that fails, and the next one. -/
example : (∃ s, (encryptedR socketF toyAead).pollRead ({ dec := { key := [1] } }, { chunks := [], err := some .other, after := recovers }) 8 = (.ready (.error .other), [], s)) := by
  simp [encryptedR, Layers.pollRead, Layers.pollFutRead, Layers.pollPackage, Layers.fill, socketF]

end Bromine.Props
