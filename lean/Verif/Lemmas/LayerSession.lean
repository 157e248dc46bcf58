import Verif.Model.LayerSession
import Verif.Lemmas.LayerLink
/-
Emitting over layers that have carried something already.
-/
namespace Bromine.Layers
open Bromine CryptIO

structure EInv (A : Aead) (l : Layer) (ls : List Layer) (before : Bytes) (seen : List IoAns) (s : Emitter (ls.length + 1)) : Prop where
  free : s.fate = .going → s.cur = none → (sends A (l :: ls)).idle s.log.length s.w ∧ s.wire A = before ++ wraps A (l :: ls) 0 s.log
  held : ∀ st, s.fate = .going → s.cur = some st → ∃ em0 e r, s.log = em0 ++ [e] ∧ Phase (sends A (l :: ls)) em0.length (Wire.frame e) st s.w r ∧ s.wire A ++ r = before ++ wraps A (l :: ls) 0 s.log
  onWire : s.wire A <+: before ++ wraps A (l :: ls) 0 s.log
  calm : s.fate ≠ .panicked
  cause : ∀ e, s.fate = .failed e → Fails seen e

theorem Fails.more {as bs : List IoAns} {e : IoErr} (h : Fails as e) (hs : ∀ a ∈ as, a ∈ bs) : Fails bs e := by
  rcases h with h | ⟨h1, h2⟩
  · exact .inl (hs _ h)
  · exact .inr ⟨h1, hs _ h2⟩

theorem einv_step (A : Aead) (l : Layer) (ls : List Layer) (before : Bytes) (seen : List IoAns) {s s' : Emitter (ls.length + 1)} {o : EmitOp} (hi : EInv A l ls before seen s)
    (hs : emitStep A s o = some s') (hc : ∀ e ∈ s'.log, Carry ls e) : EInv A l ls before (seen ++ match o with | .poll as => as | .emit _ => []) s' := by
  cases o with
  | emit e =>
    simp only [emitStep] at hs
    split at hs
    · rename_i hh
      obtain ⟨h1, h2⟩ := hh
      have h2 : s.cur = none := Option.isNone_iff_eq_none.1 h2
      cases hs
      obtain ⟨g1, g2⟩ := hi.free h1 h2
      have hce := hc e (by simp)
      have hst := (sends A (l :: ls)).start g1 (sends_ok A (l :: ls) (hce.ok l))
      rw [sends_wrap] at hst
      have hw : (Emitter.wire A { s with cur := some (.writing (Wire.frame e)), log := s.log ++ [e] }) ++ wrapL A (l :: ls) s.log.length (Wire.frame e) = before ++ wraps A (l :: ls) 0 (s.log ++ [e]) := by
        rw [wraps_snoc, ← List.append_assoc, ← g2]; rfl
      refine ⟨by simp, ?_, ⟨_, hw⟩, hi.calm, fun e' he' => ?_⟩
      · intro st _ hst'
        cases hst'
        exact ⟨s.log, e, _, rfl, hst, hw⟩
      · have : s.fate = .failed e' := he'
        rw [h1] at this; cases this
    · cases hs
  | poll as =>
    simp only [emitStep] at hs
    split at hs
    · rename_i st h1 h2
      obtain ⟨em0, e, r, g1, g2, g3⟩ := hi.held st h1 h2
      have hp := polled_emit (sends A (l :: ls)) (g2.set { (layersW A (ls.length + 1)).base s.w with answers := as })
      have hbs := (sends A (l :: ls)).base_set s.w { (layersW A (ls.length + 1)).base s.w with answers := as }
      rw [hbs] at hp
      change Polled (fun x : Stage × WState (ls.length + 1) => (layersW A (ls.length + 1)).base x.2) _ r _ _
        (pollEmit (layersW A (ls.length + 1)) ((layersW A (ls.length + 1)).setBase s.w { (layersW A (ls.length + 1)).base s.w with answers := as }) st) at hp
      generalize pollEmit (layersW A (ls.length + 1)) ((layersW A (ls.length + 1)).setBase s.w { (layersW A (ls.length + 1)).base s.w with answers := as }) st = x at hp hs
      have key : ∀ {w' : WState (ls.length + 1)} {r' : Bytes}, Adv { (layersW A (ls.length + 1)).base s.w with answers := as } ((layersW A (ls.length + 1)).base w') r r' →
          ((layersW A (ls.length + 1)).base w').wire ++ r' = before ++ wraps A (l :: ls) 0 s.log := by
        rintro w' r' ⟨⟨d, e1, e2⟩, -⟩
        rw [e2, List.append_assoc, ← e1]
        exact g3
      cases hp with
      | @error er x r' hb hd =>
        obtain ⟨st', w'⟩ := x
        cases hs
        refine ⟨by simp, by simp, ⟨_, key hd⟩, by simp, ?_⟩
        intro e' he'
        cases he'
        exact Fails.more hb (by simp +contextual)
      | @pending x r' f1 f2 f3 =>
        obtain ⟨st', w'⟩ := x
        cases hs
        refine ⟨by simp, ?_, ⟨_, key f2⟩, hi.calm, fun e' he' => ?_⟩
        · intro st'' _ hst''
          cases hst''
          exact ⟨em0, e, r', g1, f1, key f2⟩
        · have : s.fate = .failed e' := he'
          rw [h1] at this; cases this
      | @ready a x r' f1 f2 =>
        obtain ⟨st', w'⟩ := x
        cases hs
        obtain ⟨f1, rfl⟩ := f1
        have hk := key f2
        rw [List.append_nil] at hk
        refine ⟨fun _ _ => ⟨by rw [g1, List.length_append]; exact f1, hk⟩, by simp, ⟨[], by rw [List.append_nil]; exact hk⟩, hi.calm, fun e' he' => ?_⟩
        have : s.fate = .failed e' := he'
        rw [h1] at this; cases this
    · cases hs

/-- All answers of the socket. -/
def answersOf : List EmitOp → List IoAns
  | [] => []
  | .emit _ :: os => answersOf os
  | .poll as :: os => as ++ answersOf os

theorem log_grows (A : Aead) {n : Nat} {s s' : Emitter n} {o : EmitOp} (hs : emitStep A s o = some s') : s.log <+: s'.log := by
  cases o with
  | emit e =>
    simp only [emitStep] at hs
    split at hs
    · cases hs; exact List.prefix_append _ _
    · cases hs
  | poll as =>
    simp only [emitStep] at hs
    split at hs
    · split at hs <;> cases hs <;> exact List.prefix_refl _
    · cases hs

theorem logs_grow (A : Aead) {n : Nat} : ∀ (ops : List EmitOp) {s s' : Emitter n}, emits A s ops = some s' → s.log <+: s'.log := by
  intro ops
  induction ops with
  | nil => intro s s' h; cases h; exact List.prefix_refl _
  | cons o os ih =>
    intro s s' h
    obtain ⟨s1, h1, h2⟩ := Option.bind_eq_some_iff.1 h
    exact (log_grows A h1).trans (ih h2)

theorem einv_run (A : Aead) (l : Layer) (ls : List Layer) (before : Bytes) : ∀ (ops : List EmitOp) (seen : List IoAns) {s s' : Emitter (ls.length + 1)}, EInv A l ls before seen s → emits A s ops = some s' →
    (∀ e ∈ s'.log, Carry ls e) → EInv A l ls before (seen ++ answersOf ops) s' := by
  intro ops
  induction ops with
  | nil => intro seen s s' hi h _; cases h; simpa [answersOf] using hi
  | cons o os ih =>
    intro seen s s' hi h hc
    obtain ⟨s1, h1, h2⟩ := Option.bind_eq_some_iff.1 h
    have := ih _ (einv_step A l ls before seen hi h1 fun e he => hc e ((logs_grow A os h2).subset he)) h2 hc
    cases o <;> simpa [answersOf, List.append_assoc] using this

theorem mem_answersOf {a : IoAns} : ∀ {ops : List EmitOp}, a ∈ answersOf ops → ∃ as, .poll as ∈ ops ∧ a ∈ as := by
  intro ops
  induction ops with
  | nil => intro h; cases h
  | cons o os ih =>
    intro h
    cases o with
    | emit e => obtain ⟨as, h1, h2⟩ := ih h; exact ⟨as, by simp [h1], h2⟩
    | poll bs =>
      rcases List.mem_append.1 h with h | h
      · exact ⟨bs, by simp, h⟩
      · obtain ⟨as, h1, h2⟩ := ih h; exact ⟨as, by simp [h1], h2⟩

theorem emit_progress (A : Aead) (l : Layer) (ls : List Layer) (before : Bytes) (seen : List IoAns) {s : Emitter (ls.length + 1)} (hi : EInv A l ls before seen s) {st : Stage} (h1 : s.fate = .going) (h2 : s.cur = some st)
    {as : List IoAns} (hr : HeadReady as) (hb : ∀ e, ¬ Fails as e) : ∃ s', emitStep A s (.poll as) = some s' ∧ s'.log = s.log ∧ s'.fate = .going ∧ (s'.cur = none ∨ (s.wire A).length < (s'.wire A).length) := by
  simp only [emitStep, h1, h2]
  obtain ⟨em0, e, r, g1, g2, g3⟩ := hi.held st h1 h2
  have hp := polled_emit (sends A (l :: ls)) (g2.set { (layersW A (ls.length + 1)).base s.w with answers := as })
  have hbs := (sends A (l :: ls)).base_set s.w { (layersW A (ls.length + 1)).base s.w with answers := as }
  rw [hbs] at hp
  change Polled (fun x : Stage × WState (ls.length + 1) => (layersW A (ls.length + 1)).base x.2) _ r _ _
    (pollEmit (layersW A (ls.length + 1)) ((layersW A (ls.length + 1)).setBase s.w { (layersW A (ls.length + 1)).base s.w with answers := as }) st) at hp
  generalize pollEmit (layersW A (ls.length + 1)) ((layersW A (ls.length + 1)).setBase s.w { (layersW A (ls.length + 1)).base s.w with answers := as }) st = x at hp
  cases hp with
  | @error er x r' hf hd => exact absurd hf (hb er)
  | @pending x r' f1 f2 f3 =>
    obtain ⟨st', w'⟩ := x
    refine ⟨_, rfl, rfl, rfl, .inr ?_⟩
    rcases f3 with f3 | f3
    · obtain ⟨d, e1, e2⟩ := f2.wire
      show ((layersW A (ls.length + 1)).base s.w).wire.length < ((layersW A (ls.length + 1)).base w').wire.length
      dsimp only at e2
      rw [e2, List.length_append]
      have : d ≠ [] := by rintro rfl; exact f3 (by simpa using e1.symm)
      have := List.length_pos_iff.2 this
      omega
    · exact absurd hr f3
  | @ready a x r' f1 f2 =>
    obtain ⟨st', w'⟩ := x
    exact ⟨_, rfl, rfl, rfl, .inl rfl⟩

/-- As many willing polls as there are bytes left, and one. -/
theorem emit_finishes (A : Aead) (l : Layer) (ls : List Layer) (before : Bytes) : ∀ (ps : List (List IoAns)) (seen : List IoAns) {s : Emitter (ls.length + 1)}, EInv A l ls before seen s → s.fate = .going →
    (∀ e ∈ s.log, Carry ls e) → (∀ as ∈ ps, HeadReady as ∧ ∀ e, ¬ Fails as e) → (before ++ wraps A (l :: ls) 0 s.log).length < (s.wire A).length + ps.length →
    ∃ k, k ≤ ps.length ∧ ∃ s', emits A s ((ps.take k).map .poll) = some s' ∧ s'.log = s.log ∧ s'.fate = .going ∧ s'.cur = none := by
  intro ps
  induction ps with
  | nil =>
    intro seen s hi _ _ _ hl
    have := hi.onWire.length_le
    simp only [List.length_nil] at hl
    omega
  | cons as ps ih =>
    intro seen s hi hg hc hw hl
    cases hcur : s.cur with
    | none => exact ⟨0, by omega, s, rfl, rfl, hg, hcur⟩
    | some st =>
      obtain ⟨s1, h1, h2, h3, h4⟩ := emit_progress A l ls before seen hi hg hcur (hw as (by simp)).1 (hw as (by simp)).2
      rcases h4 with h4 | h4
      · exact ⟨1, by simp, s1, by simp [emits, h1], h2, h3, h4⟩
      · have hc' : ∀ e ∈ s1.log, Carry ls e := by rw [h2]; exact hc
        obtain ⟨k, g1, s', g2, g3, g4, g5⟩ := ih _ (einv_step A l ls before seen hi h1 hc') h3 hc' (fun as h => hw as (by simp [h])) (by rw [h2]; simp only [List.length_cons] at hl; omega)
        exact ⟨k + 1, by simp; omega, s', by rw [List.take_succ_cons, List.map_cons, emits, h1]; exact g2, g3.trans h2, g4, g5⟩

end Bromine.Layers
