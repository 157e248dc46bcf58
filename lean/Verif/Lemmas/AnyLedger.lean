import Verif.Lemmas.LayerAny
/-
The ledger of `Spec/LayerAny.lean` is right: the invariant.
-/
namespace Bromine.Layers
open Bromine CryptIO Spec Props Link

section
variable {A : Aead} {l : Layer} {ls : List Layer}

structure AInv (A : Aead) (l : Layer) (ls : List Layer) (s : AState (l :: ls).length) (em : List Event) (L : FLedger) : Prop where
  good : FGood (sends A ls) A l L.broken L.led.sent L.led.waiting s.w
  sub : (L.led.sent.flatten ++ L.led.waiting ++ L.led.fresh).Sublist em
  left : Left s.w.1 L.led.unfinished
  holds : Holds em s.w.1 (s.cur.map Prod.snd) L.led.cur
  same : s.cur.map Prod.fst = L.led.cur.map Prod.fst
  all : em.Perm (L.led.sent.flatten ++ L.led.waiting ++ L.led.lost ++ L.led.fresh)

/-- What the first poll of an emit does to the ledger is what it does to the write half. -/
theorem first_took {em : List Event} {L : Ledger} {ws : WriteStream} {st : Stage} {e : Event} {polled : Bool} (hL : L.cur = some (e, polled)) (hin : ws.futWrite ≠ none → ws.futFlush = none ∧ L.waiting = [])
    (hbuf : ws.buffer.length = (L.waiting.map frameSize).sum) (hle : Left ws L.unfinished) (g3 : polled = false → st = .writing (Wire.frame e)) (g4 : polled = true → ∀ rem, st = .writing rem → ws.futWrite ≠ none)
    (hall : em.Perm (L.sent.flatten ++ L.waiting ++ L.lost ++ L.fresh)) (hsub : (L.sent.flatten ++ L.waiting ++ L.fresh).Sublist em) :
    (took e st ws L.sent L.waiting).1 = (if polled then L else L.first e).sent ∧ (took e st ws L.sent L.waiting).2 = (if polled then L else L.first e).waiting ∧
    em.Perm ((if polled then L else L.first e).sent.flatten ++ (if polled then L else L.first e).waiting ++ (if polled then L else L.first e).lost) ∧
    ((if polled then L else L.first e).sent.flatten ++ (if polled then L else L.first e).waiting).Sublist em ∧
    (if polled then L else L.first e).unfinished = L.unfinished ∧
    (Panics e st ws ↔ polled = false ∧ L.unfinished = some .flush ∧ 1024 ≤ (L.waiting.map frameSize).sum + frameSize e) := by
  have hBig : Big ws e ↔ 1024 ≤ (L.waiting.map frameSize).sum + frameSize e := by unfold Big WRITE_BUF_SIZE; rw [hbuf, length_frame]
  unfold Ledger.fresh at hall hsub
  rw [hL] at hall hsub
  cases polled with
  | true =>
    simp only [List.append_nil] at hall hsub
    have ht : took e st ws L.sent L.waiting = (L.sent, L.waiting) := by
      unfold took
      rw [if_pos]
      cases st with
      | flushing => exact .inr rfl
      | writing rem => exact .inl (g4 rfl rem rfl)
    rw [ht]
    refine ⟨rfl, rfl, hall, hsub, rfl, ?_⟩
    constructor
    · rintro ⟨k1, k2, -⟩
      cases st with
      | flushing => exact absurd rfl k1
      | writing rem => exact absurd (hin (g4 rfl rem rfl)).1 k2
    · rintro ⟨h, -⟩; cases h
  | false =>
    have hst := g3 rfl
    subst hst
    simp only [Bool.false_eq_true, if_false]
    unfold took Ledger.first
    dsimp only at hall hsub
    cases hu : L.unfinished with
    | none =>
      rw [hu] at hle
      obtain ⟨hw, hf⟩ := hle
      simp only [hw, hf, ne_eq, not_true, reduceCtorEq, or_self, if_false, if_true]
      refine ⟨trivial, trivial, ?_, ?_, trivial, ?_⟩
      · refine hall.trans ((perm_move _ _ _ _).trans ?_)
        simp
      · simpa [List.append_assoc] using hsub
      · simp [Panics, hf]
    | some u =>
      rw [hu] at hle
      cases u with
      | write =>
        have hw : ws.futWrite ≠ none := hle
        have hor : ws.futWrite ≠ none ∨ Stage.writing (Wire.frame e) = .flushing := .inl hw
        simp only [if_pos hor]
        refine ⟨trivial, trivial, by simpa [List.append_assoc] using hall, (List.sublist_append_left _ _).trans hsub, trivial, ?_⟩
        simp [Panics, (hin hw).1]
      | flush =>
        obtain ⟨hw, hf⟩ := hle
        have hor : ¬ (ws.futWrite ≠ none ∨ Stage.writing (Wire.frame e) = .flushing) := fun h => h.elim (fun h => h hw) (by simp)
        simp only [if_neg hor, if_neg hf, hBig]
        by_cases hb : 1024 ≤ (L.waiting.map frameSize).sum + frameSize e
        · have hb' : ¬ (L.waiting.map frameSize).sum + frameSize e < 1024 := by omega
          simp only [if_pos hb, if_neg hb']
          refine ⟨trivial, trivial, ?_, ?_, trivial, ⟨fun _ => ⟨trivial, trivial, hb⟩, fun _ => ⟨by simp, hf, hBig.2 hb⟩⟩⟩
          · refine hall.trans ?_
            have : (L.waiting ++ L.lost).Perm (L.lost ++ L.waiting) := List.perm_append_comm
            have := (this.append_left L.sent.flatten).append_right [e]
            simpa [List.append_assoc] using this
          · rw [List.append_nil]
            exact (List.sublist_append_left _ _).trans ((List.sublist_append_left _ _).trans hsub)
        · have hb' : (L.waiting.map frameSize).sum + frameSize e < 1024 := by omega
          simp only [if_neg hb, if_pos hb']
          refine ⟨trivial, trivial, hall.trans (perm_move _ _ _ _), by simpa [List.append_assoc] using hsub, trivial, ⟨fun h => absurd (hBig.1 h.2.2) hb, fun h => absurd h.2.2 hb⟩⟩

/-- What a poll of the emit of `e` tells, if it panics exactly when `why`. -/
inductive Hears (A : Aead) (e : Event) (why : Prop) (as : List IoAns) (s s' : AState (l :: ls).length) : Except IoErr Told → Prop
  | inWrite : s'.cur.map Prod.fst = some e → ¬ why → (HeadReady as → (s.wire A).length < (s'.wire A).length) → Hears A e why as s s' (.ok .inWrite)
  | inFlush : s'.cur.map Prod.fst = some e → ¬ why → (HeadReady as → (s.wire A).length < (s'.wire A).length) → Hears A e why as s s' (.ok .inFlush)
  | ok : s'.cur = none → ¬ why → Hears A e why as s s' (.ok .ok)
  | panicked : s'.cur = none → why → s'.wire A = s.wire A → Hears A e why as s s' (.ok .panicked)
  | failed {err} : s'.cur = none → ¬ why → Fails as err → Hears A e why as s s' (.error err)

theorem any_poll {s : AState (l :: ls).length} {em : List Event} {L : FLedger} {e : Event} {st : Stage} (as : List IoAns) (ih : AInv A l ls s em L) (hg : ∀ e ∈ em, CarryDrop ls e) (hcur : s.cur = some (e, st)) :
    ∃ s', anyStep A s (.poll as) = some s' ∧ AInv A l ls s' em (L.poll (heard (s.polled A st as))) ∧ s.wire A <+: s'.wire A ∧
      Hears A e (L.led.cur = some (e, false) ∧ L.led.unfinished = some .flush ∧ 1024 ≤ (L.led.waiting.map frameSize).sum + frameSize e) as s s' (heard (s.polled A st as)) ∧ ∀ b, (s.polled A st as).1 = .pending b → b = true := by
  have hh := ih.holds
  rw [hcur] at hh
  rcases hL : L.led.cur with _ | ⟨e', polled⟩
  · rw [hL] at hh; exact hh.elim
  · have hs := ih.same
    rw [hcur, hL] at hs
    simp only [Option.map_some, Option.some.injEq] at hs
    subst hs
    rw [hL] at hh
    obtain ⟨⟨em1, g1⟩, g2, g3, g4⟩ := hh
    have hge := hg e (by rw [g1]; simp)
    obtain ⟨k1, k2, k3, k3', k4, k5⟩ := first_took hL ih.good.in_write (by rw [ih.good.buf, length_framesOf']) ih.left g3 g4 ih.all ih.sub
    have k5' : Panics e st s.w.1 ↔ some (e, polled) = some (e, false) ∧ L.led.unfinished = some .flush ∧ 1024 ≤ (L.led.waiting.map frameSize).sum + frameSize e := by
      rw [k5]; simp
    rw [← k5']
    have hm := any_emit (recovers A ls) (ih.good.set as) (show AtStage e st (s.w.1, _).1 from g2) (frame_pos e) (hge.ok l)
    dsimp only at hm
    rw [(sends A ls).base_set, k1, k2] at hm
    have hw0 : s.wire A = ((layersW A ls.length).base s.w.2).wire := rfl
    have hpol : s.polled A st as = pollEmit (encryptedW (layersW A ls.length) A) (s.w.1, (layersW A ls.length).setBase s.w.2 { answers := as, wire := ((layersW A ls.length).base s.w.2).wire }) st := rfl
    have hap : s.wire A <+: ((layersW A (l :: ls).length).base (s.polled A st as).2.2).wire := by
      have hb0 : s.wire A = ((layersW A (l :: ls).length).base ((layersW A (l :: ls).length).setBase s.w { answers := as, wire := s.wire A })).wire :=
        (congrArg Socket.wire ((layers_append A (l :: ls).length).base_set s.w { answers := as, wire := s.wire A })).symm
      exact List.IsPrefix.trans ⟨[], (List.append_nil _).trans hb0⟩ (emit_appends (layers_append A (l :: ls).length) _ st)
    rw [← hpol] at hm
    simp only [anyStep, hcur]
    generalize s.polled A st as = x at hm hap ⊢
    clear hpol
    cases hm with
    | @pending st' w' c1 c2 c3 c4 c5 =>
      cases st' with
      | writing rem =>
        refine ⟨_, rfl, ⟨?_, ?_, ?_, ?_, ?_, ?_⟩, hap, .inWrite rfl c4 fun hr => ?_, fun b hb => by cases hb; rfl⟩
        · simpa [heard, told, FLedger.poll, Ledger.poll, hL] using c1
        · simpa [heard, told, FLedger.poll, Ledger.poll, hL, Ledger.fresh] using k3'
        · simpa [heard, told, FLedger.poll, Ledger.poll, hL, Left] using c3 rem rfl
        · simp only [heard, told, FLedger.poll, Ledger.poll, hL, Option.map_some]
          exact ⟨⟨em1, g1⟩, c2, (by intro h; cases h), fun _ => c3⟩
        · simp [heard, told, FLedger.poll, Ledger.poll, hL]
        · simpa [heard, told, FLedger.poll, Ledger.poll, hL, Ledger.fresh] using k3
        · exact c5.2.resolve_right fun h => h hr
      | flushing =>
        refine ⟨_, rfl, ⟨?_, ?_, ?_, ?_, ?_, ?_⟩, hap, .inFlush rfl c4 fun hr => ?_, fun b hb => by cases hb; rfl⟩
        · simpa [heard, told, FLedger.poll, Ledger.poll, hL] using c1
        · simpa [heard, told, FLedger.poll, Ledger.poll, hL, Ledger.fresh] using k3'
        · simpa [heard, told, FLedger.poll, Ledger.poll, hL, Left] using (show _ ∧ _ from c2)
        · simp only [heard, told, FLedger.poll, Ledger.poll, hL, Option.map_some]
          exact ⟨⟨em1, g1⟩, c2, (by intro h; cases h), fun _ => c3⟩
        · simp [heard, told, FLedger.poll, Ledger.poll, hL]
        · simpa [heard, told, FLedger.poll, Ledger.poll, hL, Ledger.fresh] using k3
        · exact c5.2.resolve_right fun h => h hr
    | @ready st' w' c1 c2 c3 c4 =>
      refine ⟨_, rfl, ⟨?_, ?_, ?_, ?_, ?_, ?_⟩, hap, .ok rfl c4, fun b hb => by cases hb⟩
      · simpa [heard, told, FLedger.poll, Ledger.poll, hL] using c1
      · simpa [heard, told, FLedger.poll, Ledger.poll, hL, Ledger.fresh] using k3'
      · simpa [heard, told, FLedger.poll, Ledger.poll, hL, Left] using ⟨c2, c3⟩
      · simp [heard, told, FLedger.poll, Ledger.poll, hL, Holds]
      · simp [heard, told, FLedger.poll, Ledger.poll, hL]
      · simpa [heard, told, FLedger.poll, Ledger.poll, hL, Ledger.fresh] using k3
    | @error st' w' err c1 c2 c3 c4 c5 =>
      refine ⟨_, rfl, ⟨?_, ?_, ?_, ?_, ?_, ?_⟩, hap, .failed rfl c4 c5, fun b hb => by cases hb⟩
      · simpa [heard, told, FLedger.poll, Ledger.poll, hL] using c1
      · simpa [heard, told, FLedger.poll, Ledger.poll, hL, Ledger.fresh] using k3'
      · simpa [heard, told, FLedger.poll, Ledger.poll, hL, Left] using ⟨c2, c3⟩
      · simp [heard, FLedger.poll, Ledger.poll, hL, Holds]
      · simp [heard, FLedger.poll, Ledger.poll, hL]
      · simpa [heard, FLedger.poll, Ledger.poll, hL, Ledger.fresh] using k3
    | @panic st' w' c1 c2 c3 c4 c5 =>
      refine ⟨_, rfl, ⟨?_, ?_, ?_, ?_, ?_, ?_⟩, hap, .panicked rfl c4 ?_, fun b hb => by cases hb⟩
      · simpa [heard, told, FLedger.poll, Ledger.poll, hL] using c1
      · simpa [heard, told, FLedger.poll, Ledger.poll, hL, Ledger.fresh] using k3'
      · have : (if polled then L.led else L.led.first e).unfinished = some .flush := by rw [k4]; exact (k5.1 c4).2.1
        simp only [heard, told, FLedger.poll, Ledger.poll, hL]
        rw [this]
        exact ⟨c2, by rw [c3]; exact c4.2.1⟩
      · simp [heard, told, FLedger.poll, Ledger.poll, hL, Holds]
      · simp [heard, told, FLedger.poll, Ledger.poll, hL]
      · simpa [heard, told, FLedger.poll, Ledger.poll, hL, Ledger.fresh] using k3
      · have h9 := congrArg Socket.wire c5
        exact h9

theorem any_emitted {s s' : AState (l :: ls).length} {em : List Event} {L : FLedger} {e : Event} (ih : AInv A l ls s em L) (hs : anyStep A s (.emit e) = some s') : AInv A l ls s' (em ++ [e]) (L.emit e) := by
  simp only [anyStep] at hs
  split at hs
  · rename_i hc
    cases hs
    have hLc : L.led.cur = none := by
      have := ih.same
      rw [hc] at this
      cases hL : L.led.cur with
      | none => rfl
      | some x => rw [hL] at this; cases this
    have hp := ih.all
    have hsu := ih.sub
    unfold Ledger.fresh at hp hsu
    rw [hLc] at hp hsu
    rw [List.append_nil] at hp hsu
    exact ⟨ih.good, hsu.append_right [e], ih.left, ⟨⟨_, rfl⟩, rfl, fun _ => rfl, (by intro h; cases h)⟩, rfl, hp.append_right [e]⟩
  · cases hs

theorem any_dropped {s s' : AState (l :: ls).length} {em : List Event} {L : FLedger} (ih : AInv A l ls s em L) (hs : anyStep A s .drop = some s') : AInv A l ls s' em L.drop := by
  simp only [anyStep] at hs
  split at hs
  · cases hs
  · rename_i y hc
    cases hs
    have hp := ih.all
    have hsu := ih.sub
    have hsm := ih.same
    rw [hc] at hsm
    unfold Ledger.fresh at hp hsu
    unfold FLedger.drop Ledger.drop
    rcases hL : L.led.cur with _ | ⟨e, polled⟩
    · rw [hL] at hsm; cases hsm
    · rw [hL] at hp hsu
      cases polled with
      | true => exact ⟨ih.good, hsu, ih.left, trivial, rfl, hp⟩
      | false => exact ⟨ih.good, by simpa [Ledger.fresh] using (List.sublist_append_left _ _).trans hsu, ih.left, trivial, rfl, by simpa [Ledger.fresh, List.append_assoc] using hp⟩

theorem any_booked {s0 s : AState (l :: ls).length} {L0 L : FLedger} {em0 em : List Event} (h0 : AInv A l ls s0 em0 L0) (h : Booked A l ls s0 L0 s em L)
    (hg : ∀ e ∈ em0 ++ em, CarryDrop ls e) : AInv A l ls s (em0 ++ em) L := by
  induction h with
  | start => simpa using h0
  | @emit s s' em L e h hs ih =>
    rw [← List.append_assoc]
    exact any_emitted (ih fun e' he' => hg e' (by rw [← List.append_assoc]; exact List.mem_append_left _ he')) hs
  | @poll s s' em L e st as h hcur hs ih =>
    obtain ⟨s1, h1, h2, -⟩ := any_poll as (ih hg) hg hcur
    rw [h1] at hs
    cases hs
    exact h2
  | @drop s s' em L h hs ih => exact any_dropped (ih hg) hs

theorem any_start : AInv A l ls (anyStart (l :: ls)) [] {} := by
  have hw : ((layersW A ls.length).base (startW ls)).wire = [] := congrArg Socket.wire (base_startW A ls)
  refine ⟨⟨?_, rfl, by decide, by simp, by simp⟩, by simp [Ledger.fresh], ⟨rfl, rfl⟩, trivial, rfl, .refl _⟩
  exact FShape.idle (gs := []) (buf := []) (parts := []) ⟨[], by simp, rfl, by simp⟩ (sends_start A ls) ⟨rfl, by simp⟩ hw

theorem any_inv {s : AState (l :: ls).length} {L : FLedger} {em : List Event} (h : BookedAll A l ls s em L) (hg : ∀ e ∈ em, CarryDrop ls e) : AInv A l ls s em L := by
  simpa using any_booked any_start h (by simpa using hg)

end
end Bromine.Layers
