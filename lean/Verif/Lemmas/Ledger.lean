import Verif.Lemmas.LayerDropLink
import Verif.Spec.Ledger
/-
The ledger of `Spec/Ledger.lean` is right: the invariant.
-/
namespace Bromine.Layers
open Bromine CryptIO Spec Props Link

section
variable {A : Aead} {l : Layer} {ls : List Layer} {checks : Bool}

/-- What is unfinished, as the futures of the write half. -/
def Left (ws : WriteStream) : Option Unfinished → Prop
  | none => ws.futWrite = none ∧ ws.futFlush = none
  | some .write => ws.futWrite ≠ none
  | some .flush => ws.futWrite = none ∧ ws.futFlush ≠ none

/-- The emit that has the connection. -/
def Holds (em : List Event) (ws : WriteStream) : Option Stage → Option (Event × Bool) → Prop
  | none, none => True
  | some st, some (e, polled) => (∃ em0, em = em0 ++ [e]) ∧ AtStage e st ws ∧ (polled = false → st = .writing (Wire.frame e)) ∧ (polled = true → ∀ rem, st = .writing rem → ws.futWrite ≠ none)
  | _, _ => False

structure LedInv (A : Aead) (l : Layer) (ls : List Layer) (s : LState (l :: ls).length) (em rd : List Event) (L : Ledger) : Prop where
  inv : ∃ gs left, DInvL A l ls s em rd L.sent L.waiting gs left
  left : Left s.w.1 L.unfinished
  holds : Holds em s.w.1 s.cur L.cur
  all : em.Perm (L.sent.flatten ++ L.waiting ++ L.lost ++ L.fresh)

theorem length_framesOf' (es : List Event) : (framesOf es).length = (es.map frameSize).sum := by
  induction es with
  | nil => rfl
  | cons e es ih => rw [framesOf_cons, List.length_append, ih, length_frame]; rfl

theorem perm_move (a b c d : List Event) : (a ++ b ++ c ++ d).Perm (a ++ (b ++ d) ++ c) := by
  have : (c ++ d).Perm (d ++ c) := List.perm_append_comm
  simpa [List.append_assoc] using (this.append_left b).append_left a

theorem ledger_poll {s s' : LState (l :: ls).length} {em rd : List Event} {L : Ledger} {st : Stage} {as : List IoAns} (ih : LedInv A l ls s em rd L) (hg : ∀ e ∈ em, CarryDrop ls e) (hcur : s.cur = some st)
    (hs : dropStep A (n := ls.length + 1) s (.poll as) = some s') :
    LedInv A l ls s' em rd (L.poll (told (pollEmit (layersW A (ls.length + 1)) ((layersW A (ls.length + 1)).setBase s.w { (layersW A (ls.length + 1)).base s.w with answers := as }) st))) ∧
    (told (pollEmit (layersW A (ls.length + 1)) ((layersW A (ls.length + 1)).setBase s.w { (layersW A (ls.length + 1)).base s.w with answers := as }) st) = .panicked ↔
      ∃ e, L.cur = some (e, false) ∧ L.unfinished = some .flush ∧ 1024 ≤ (L.waiting.map frameSize).sum + frameSize e) ∧
    (told (pollEmit (layersW A (ls.length + 1)) ((layersW A (ls.length + 1)).setBase s.w { (layersW A (ls.length + 1)).base s.w with answers := as }) st) = .panicked → s'.wire A = s.wire A) := by
  obtain ⟨gs, left, hi⟩ := ih.inv
  obtain ⟨st', em0, e, h1, h2, h3, h4, h5⟩ := dinv_poll hi hg hs
  rw [hcur] at h1
  cases h1
  have hh := ih.holds
  rw [hcur] at hh
  have hle := ih.left
  have hall := ih.all
  have hbuf : s.w.1.buffer.length = (L.waiting.map frameSize).sum := by rw [hi.good.buf, length_framesOf']
  have hBig : Big s.w.1 e ↔ 1024 ≤ (L.waiting.map frameSize).sum + frameSize e := by unfold Big WRITE_BUF_SIZE; rw [hbuf, length_frame]
  have hin := hi.good.in_write
  rcases hL : L.cur with _ | ⟨e', polled⟩
  · rw [hL] at hh; exact hh.elim
  · rw [hL] at hh
    obtain ⟨⟨em1, g1⟩, g2, g3, g4⟩ := hh
    have hee : e' = e := by
      have := h2.symm.trans g1
      have := List.append_inj_right' this rfl
      simpa using this.symm
    subst hee
    -- the ledger after the first poll
    have key : (took e' st s.w.1 L.sent L.waiting).1 = (if polled then L else L.first e').sent ∧ (took e' st s.w.1 L.sent L.waiting).2 = (if polled then L else L.first e').waiting ∧
        em.Perm ((if polled then L else L.first e').sent.flatten ++ (if polled then L else L.first e').waiting ++ (if polled then L else L.first e').lost) ∧
        (if polled then L else L.first e').unfinished = L.unfinished ∧
        (Panics e' st s.w.1 ↔ polled = false ∧ L.unfinished = some .flush ∧ 1024 ≤ (L.waiting.map frameSize).sum + frameSize e') := by
      unfold Ledger.fresh at hall
      rw [hL] at hall
      cases polled with
      | true =>
        simp only [List.append_nil] at hall
        have ht : took e' st s.w.1 L.sent L.waiting = (L.sent, L.waiting) := by
          unfold took
          rw [if_pos]
          cases st with
          | flushing => exact .inr rfl
          | writing rem => exact .inl (g4 rfl rem rfl)
        rw [ht]
        refine ⟨rfl, rfl, hall, rfl, ?_⟩
        constructor
        · rintro ⟨k1, k2, -⟩
          cases st with
          | flushing => exact absurd rfl k1
          | writing rem => exact absurd (hin (g4 rfl rem rfl)).1 k2
        · rintro ⟨h, -⟩; cases h
      | false =>
        have hst := g3 rfl
        subst hst
        simp only [Bool.false_eq_true, if_false]
        unfold took Ledger.first
        dsimp only at hall
        cases hu : L.unfinished with
        | none =>
          rw [hu] at hle
          obtain ⟨hw, hf⟩ := hle
          simp only [hw, hf, ne_eq, not_true, reduceCtorEq, or_self, if_false, if_true]
          refine ⟨trivial, trivial, ?_, trivial, ?_⟩
          · refine hall.trans ((perm_move _ _ _ _).trans ?_)
            simp
          · simp [Panics, hf]
        | some u =>
          rw [hu] at hle
          cases u with
          | write =>
            have hw : s.w.1.futWrite ≠ none := hle
            have hor : s.w.1.futWrite ≠ none ∨ Stage.writing (Wire.frame e') = .flushing := .inl hw
            simp only [if_pos hor]
            refine ⟨trivial, trivial, by simpa [List.append_assoc] using hall, trivial, ?_⟩
            simp [Panics, (hin hw).1]
          | flush =>
            obtain ⟨hw, hf⟩ := hle
            have hor : ¬ (s.w.1.futWrite ≠ none ∨ Stage.writing (Wire.frame e') = .flushing) := fun h => h.elim (fun h => h hw) (by simp)
            simp only [if_neg hor, if_neg hf, hBig]
            by_cases hb : 1024 ≤ (L.waiting.map frameSize).sum + frameSize e'
            · have hb' : ¬ (L.waiting.map frameSize).sum + frameSize e' < 1024 := by omega
              simp only [if_pos hb, if_neg hb']
              refine ⟨trivial, trivial, ?_, trivial, ⟨fun _ => ⟨trivial, trivial, hb⟩, fun _ => ⟨by simp, hf, hBig.2 hb⟩⟩⟩
              refine hall.trans ?_
              have : (L.waiting ++ L.lost).Perm (L.lost ++ L.waiting) := List.perm_append_comm
              have := (this.append_left L.sent.flatten).append_right [e']
              simpa [List.append_assoc] using this
            · have hb' : (L.waiting.map frameSize).sum + frameSize e' < 1024 := by omega
              simp only [if_neg hb, if_pos hb']
              refine ⟨trivial, trivial, hall.trans (perm_move _ _ _ _), trivial, ⟨fun h => absurd (hBig.1 h.2.2) hb, fun h => absurd h.2.2 hb⟩⟩
    obtain ⟨k1, k2, k3, k4, k5⟩ := key
    rw [k1, k2] at h4
    have k5' : Panics e' st s.w.1 ↔ ∃ e, some (e', polled) = some (e, false) ∧ L.unfinished = some .flush ∧ 1024 ≤ (L.waiting.map frameSize).sum + frameSize e := by
      rw [k5]
      constructor
      · rintro ⟨rfl, h⟩; exact ⟨e', rfl, h⟩
      · rintro ⟨e, h, h'⟩; cases h; exact ⟨rfl, h'⟩
    rw [← k5']
    generalize pollEmit (layersW A (ls.length + 1)) ((layersW A (ls.length + 1)).setBase s.w { (layersW A (ls.length + 1)).base s.w with answers := as }) st = x at h5 ⊢
    obtain ⟨p, st', w'⟩ := x
    dsimp only at h5
    unfold Ledger.poll
    rw [hL]
    dsimp only
    generalize (if polled then L else L.first e') = L' at h4 k1 k2 k3 k4 ⊢
    cases h5 with
    | @pending c1 c2 c3 c4 c5 =>
      cases st' with
      | writing rem =>
        refine ⟨⟨⟨gs, left, h4⟩, c4 rem rfl, ?_, by simpa [Ledger.fresh, told] using k3⟩, by simp [told, c5], (by simp [told])⟩
        rw [c2]
        exact ⟨⟨em1, g1⟩, c3, (by intro h; cases h), fun _ => c4⟩
      | flushing =>
        refine ⟨⟨⟨gs, left, h4⟩, c3, ?_, by simpa [Ledger.fresh, told] using k3⟩, by simp [told, c5], (by simp [told])⟩
        rw [c2]
        exact ⟨⟨em1, g1⟩, c3, (by intro h; cases h), fun _ => c4⟩
    | @ready c1 c2 c3 c4 c5 =>
      refine ⟨⟨⟨gs, left, h4⟩, ⟨c3, c4⟩, ?_, by simpa [Ledger.fresh, told] using k3⟩, by simp [told, c5], (by simp [told])⟩
      rw [c2]; trivial
    | @panic c1 c2 c3 c4 c5 c6 =>
      refine ⟨⟨⟨gs, left, h4⟩, ?_, ?_, by simpa [Ledger.fresh, told] using k3⟩, by simp [told, c5], fun _ => c6⟩
      · have : L'.unfinished = some .flush := by rw [k4]; exact (k5.1 c5).2.1
        dsimp only [told]
        rw [this]
        exact ⟨c3, by rw [c4]; exact c5.2.1⟩
      · rw [c2]; trivial

theorem ledger_since {s0 s : LState (l :: ls).length} {L0 L : Ledger} {em0 rd0 em rd : List Event} (h0 : LedInv A l ls s0 em0 rd0 L0) (h : Since A l ls checks s0 L0 s em rd L)
    (hg : ∀ e ∈ em0 ++ em, CarryDrop ls e) : LedInv A l ls s (em0 ++ em) (rd0 ++ rd) L := by
  induction h with
  | start => simpa using h0
  | @emit s s' em rd L e h hs ih =>
    have ih := ih fun e' he' => hg e' (by rw [← List.append_assoc]; exact List.mem_append_left _ he')
    obtain ⟨gs, left, hi⟩ := ih.inv
    obtain ⟨k1, k2, k3, k4⟩ := dinv_emit hi hs
    have hc : L.cur = none := by
      have := ih.holds
      rw [k3] at this
      cases hL : L.cur with
      | none => rfl
      | some x => rw [hL] at this; exact this.elim
    rw [← List.append_assoc]
    refine ⟨⟨gs, left, k1⟩, by rw [k2]; exact ih.left, ?_, ?_⟩
    · rw [k4]
      exact ⟨⟨_, rfl⟩, rfl, fun _ => rfl, (by intro h; cases h)⟩
    · have hp := ih.all
      unfold Ledger.fresh at hp
      rw [hc] at hp
      rw [List.append_nil] at hp
      exact hp.append_right [e]
  | @poll s s' em rd L st as h hcur hs ih => exact (ledger_poll (ih hg) hg hcur hs).1
  | @drop s s' em rd L h hs ih =>
    have ih := ih hg
    obtain ⟨gs, left, hi⟩ := ih.inv
    obtain ⟨k1, k2, k3, -⟩ := dinv_other (o := .drop) hi (by simp) hs
    have hp := ih.all
    unfold Ledger.fresh at hp
    unfold Ledger.drop
    have hh := ih.holds
    rcases hL : L.cur with _ | ⟨e, polled⟩
    · obtain ⟨st, hst⟩ := Option.isSome_iff_exists.1 (k3 rfl).1
      rw [hst, hL] at hh
      exact hh.elim
    · rw [hL] at hp
      cases polled with
      | true => exact ⟨⟨gs, left, k1⟩, by rw [k2]; exact ih.left, by rw [(k3 rfl).2]; trivial, hp⟩
      | false => exact ⟨⟨gs, left, k1⟩, by rw [k2]; exact ih.left, by rw [(k3 rfl).2]; trivial, by simpa [Ledger.fresh, List.append_assoc] using hp⟩
  | @deliver s s' em rd L n h hs ih =>
    have ih := ih hg
    obtain ⟨gs, left, hi⟩ := ih.inv
    obtain ⟨k1, k2, -, k4⟩ := dinv_other (o := (.deliver n)) hi (by simp) hs
    exact ⟨⟨gs, left, k1⟩, by rw [k2]; exact ih.left, by rw [k2, k4 (by simp)]; exact ih.holds, ih.all⟩
  | @wait s s' em rd L h hs ih =>
    have ih := ih hg
    obtain ⟨gs, left, hi⟩ := ih.inv
    obtain ⟨k1, k2, -, k4⟩ := dinv_other (o := .wait) hi (by simp) hs
    exact ⟨⟨gs, left, k1⟩, by rw [k2]; exact ih.left, by rw [k2, k4 (by simp)]; exact ih.holds, ih.all⟩
  | @read s s' em rd L e h hs ih =>
    have ih := ih hg
    obtain ⟨gs, left, hi⟩ := ih.inv
    obtain ⟨⟨gs', left', k1⟩, k2, k3⟩ := dinv_read hi hg hs
    rw [← List.append_assoc]
    exact ⟨⟨gs', left', k1⟩, by rw [k2]; exact ih.left, by rw [k2, k3]; exact ih.holds, ih.all⟩

theorem ledger_inv {s : LState (l :: ls).length} {L : Ledger} {em rd : List Event} (h : Ledgered A l ls checks s em rd L) (hg : ∀ e ∈ em, CarryDrop ls e) : LedInv A l ls s em rd L := by
  have h0 : LedInv A l ls ((Link.DropKind.droppingLayers A l ls).link checks).init [] [] {} := ⟨⟨_, _, dinv_init A l ls checks⟩, ⟨rfl, rfl⟩, trivial, .refl _⟩
  simpa using ledger_since h0 h (by simpa using hg)

end
end Bromine.Layers
