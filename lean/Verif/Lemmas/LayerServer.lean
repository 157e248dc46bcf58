import Verif.Spec.LayerServer
import Verif.Props.LayerPeer
/-
The server with encrypted layers.
-/
namespace Bromine.LayerServer
open Bromine CryptIO Layers Spec
open Bromine.Handshake (DH Keys)

variable {A : Aead} {D : DH} {keys : List Keys}

/-- The future of `protocol_accept` for this client after these polls. -/
abbrev after (A : Aead) (D : DH) (keys : List Keys) (v : Visitor) (ps : List (List IoAns)) : Setup (server A D (v.exchanges keys)).State (WState (v.exchanges keys).length) (RState (v.exchanges keys).length) :=
  serverRuns A D (v.exchanges keys) v.script ps

theorem run_append {τ ρ : Type} (c : Connecting τ ρ) : ∀ (ps qs : List (List IoAns)) (x : Setup c.State τ ρ), c.run x (ps ++ qs) = c.run (c.run x ps) qs := by
  intro ps
  induction ps with
  | nil => intro qs x; cases x <;> simp [Connecting.run]
  | cons as ps ih =>
    intro qs x
    cases x with
    | pending b s => simp only [List.cons_append, Connecting.run]; exact ih _ _
    | done w r => cases qs <;> simp [Connecting.run]
    | failed e k => cases qs <;> simp [Connecting.run]
    | panicked k => cases qs <;> simp [Connecting.run]

theorem after_snoc {v : Visitor} {ps : List (List IoAns)} {b : Bool} {st : (server A D (v.exchanges keys)).State} (h : after A D keys v ps = .pending b st) (as : List IoAns) :
    after A D keys v (ps ++ [as]) = (server A D (v.exchanges keys)).poll ((server A D (v.exchanges keys)).setSock st { (server A D (v.exchanges keys)).sock st with answers := as }) := by
  unfold after serverRuns Connecting.runs at *
  rw [run_append, h]
  simp only [Connecting.run]
  generalize (server A D (v.exchanges keys)).poll _ = x
  cases x <;> rfl

theorem visitors_append (a b : List Op) : visitors (a ++ b) = visitors a ++ visitors b := by simp [visitors]

/-- All that there is to know about a server that has run. -/
structure SInv (ops : List Op) (s : State A D keys) : Prop where
  account : (∀ r, s.phase ≠ .ended r) → s.served.map Served.visitor ++ guest s ++ s.backlog = visitors ops
  order : s.served.map Served.visitor <+: visitors ops
  waits : ∀ v st, s.phase = .settingUp v st → v ∈ visitors ops ∧ ∃ ps b, (∀ as ∈ ps, Op.poll as ∈ ops) ∧ after A D keys v ps = .pending b st
  served : ∀ c ∈ s.served, ∃ ps, (∀ as ∈ ps, Op.poll as ∈ ops) ∧ after A D keys c.visitor ps = .done c.w c.r
  endedOk : s.phase = .ended (.ok ()) → (∃ e, Op.acceptFails e ∈ ops) ∨ ∃ v ∈ visitors ops, ∃ ps e k, (∀ as ∈ ps, Op.poll as ∈ ops) ∧ after A D keys v ps = .failed e k
  endedErr : ∀ e, s.phase = .ended (.error e) → Op.bind (.error e) ∈ ops ∨ ∃ v ∈ visitors ops, ∃ ps k, after A D keys v ps = .panicked k

theorem sinv_init : SInv [] ({} : State A D keys) :=
  ⟨fun _ => rfl, by simp, by simp, by simp, by simp, by simp⟩

theorem sinv_step {ops : List Op} {s s' : State A D keys} {o : Op} (h : SInv ops s) (hs : step A D keys s o = some s') : SInv (ops ++ [o]) s' := by
  have hserved : ∀ c ∈ s.served, ∃ ps, (∀ as ∈ ps, Op.poll as ∈ ops ++ [o]) ∧ after A D keys c.visitor ps = .done c.w c.r := by
    intro c hc
    obtain ⟨ps, h1, h2⟩ := h.served c hc
    exact ⟨ps, fun as ha => List.mem_append_left _ (h1 as ha), h2⟩
  have horder : s.served.map Served.visitor <+: visitors (ops ++ [o]) := by
    rw [visitors_append]; exact h.order.trans (List.prefix_append _ _)
  cases o with
  | bind r =>
    simp only [step] at hs
    split at hs
    · rename_i hp
      have ha := h.account (by simp [hp])
      cases r with
      | ok u =>
        cases hs
        exact ⟨fun _ => by simpa [visitors, guest, hp] using ha, horder, by simp, hserved, by simp, by simp⟩
      | error e =>
        cases hs
        exact ⟨fun hh => absurd rfl (hh _), horder, by simp, hserved, by simp, fun e' he => by cases he; exact .inl (by simp)⟩
    · cases hs
  | connect v =>
    cases hs
    refine ⟨fun hh => ?_, horder, fun v' st hp => ?_, hserved, fun hp => ?_, fun e hp => ?_⟩
    · have ha := h.account hh
      rw [visitors_append, ← ha]
      simp [visitors, guest]
    · obtain ⟨h1, ps, b, h2, h3⟩ := h.waits v' st hp
      exact ⟨by rw [visitors_append]; exact List.mem_append_left _ h1, ps, b, fun as ha => List.mem_append_left _ (h2 as ha), h3⟩
    · rcases h.endedOk hp with ⟨e, he⟩ | ⟨v', h1, ps, e, k, h2, h3⟩
      · exact .inl ⟨e, List.mem_append_left _ he⟩
      · exact .inr ⟨v', by rw [visitors_append]; exact List.mem_append_left _ h1, ps, e, k, fun as ha => List.mem_append_left _ (h2 as ha), h3⟩
    · rcases h.endedErr e hp with he | ⟨v', h1, h2⟩
      · exact .inl (List.mem_append_left _ he)
      · exact .inr ⟨v', by rw [visitors_append]; exact List.mem_append_left _ h1, h2⟩
  | accept =>
    simp only [step] at hs
    split at hs
    · rename_i v vs hp hb
      have ha := h.account (by simp [hp])
      cases hs
      have hv : visitors (ops ++ [Op.accept]) = s.served.map Served.visitor ++ [v] ++ vs := by
        rw [visitors_append, ← ha, hb]; simp [visitors, guest, hp]
      refine ⟨fun _ => by rw [hv]; rfl, horder, fun v' st hst => ?_, hserved, by simp, by simp⟩
      cases hst
      exact ⟨by rw [hv]; simp, [], true, by simp, rfl⟩
    · cases hs
  | acceptFails e =>
    simp only [step] at hs
    split at hs
    · cases hs
      exact ⟨fun hh => absurd rfl (hh _), horder, by simp, hserved, fun _ => .inl ⟨e, by simp⟩, by simp⟩
    · cases hs
  | poll as =>
    simp only [step] at hs
    split at hs
    · rename_i v st hp
      obtain ⟨h1, ps, b, h2, h3⟩ := h.waits v st hp
      have ha := h.account (by simp [hp])
      have hs3 := after_snoc h3 as
      have hv : visitors (ops ++ [Op.poll as]) = visitors ops := by simp [visitors]
      have hall : ∀ as' ∈ ps ++ [as], Op.poll as' ∈ ops ++ [Op.poll as] := by
        intro as' h'
        rcases List.mem_append.1 h' with h' | h'
        · exact List.mem_append_left _ (h2 as' h')
        · simp only [List.mem_singleton] at h'; subst h'; simp
      split at hs
      · rename_i b' st' hx
        cases hs
        rw [hx] at hs3
        refine ⟨fun _ => ?_, horder, fun v' st'' hst => ?_, hserved, by simp, by simp⟩
        · rw [hv, ← ha]; simp [guest, hp]
        · cases hst
          exact ⟨by rw [hv]; exact h1, _, _, hall, hs3⟩
      · rename_i w r hx
        cases hs
        rw [hx] at hs3
        have hg : s.served.map Served.visitor ++ [v] ++ s.backlog = visitors ops := by rw [← ha]; simp [guest, hp]
        refine ⟨fun _ => ?_, ?_, by simp, fun c hc => ?_, by simp, by simp⟩
        · rw [hv, ← hg]; simp [guest]
        · rw [hv, ← hg]; simp
        · rcases List.mem_append.1 hc with hc | hc
          · exact hserved c hc
          · simp only [List.mem_singleton] at hc; subst hc
            exact ⟨_, hall, hs3⟩
      · rename_i e k hx
        cases hs
        rw [hx] at hs3
        exact ⟨fun hh => absurd rfl (hh _), horder, by simp, hserved, fun _ => .inr ⟨v, by rw [hv]; exact h1, _, e, k, hall, hs3⟩, by simp⟩
      · rename_i k hx
        cases hs
        rw [hx] at hs3
        exact ⟨fun hh => absurd rfl (hh _), horder, by simp, hserved, by simp, fun e he => .inr ⟨v, by rw [hv]; exact h1, _, k, hs3⟩⟩
    · cases hs

theorem sinv_run : ∀ (ops pre : List Op) {s s' : State A D keys}, SInv pre s → run A D keys s ops = some s' → SInv (pre ++ ops) s' := by
  intro ops
  induction ops with
  | nil => intro pre s s' h hr; cases hr; simpa using h
  | cons o ops ih =>
    intro pre s s' h hr
    obtain ⟨s1, h1, h2⟩ := Option.bind_eq_some_iff.1 hr
    have := ih (pre ++ [o]) (sinv_step h h1) h2
    simpa using this

theorem server_run_append {s : State A D keys} {ops ops' : List Op} : run A D keys s (ops ++ ops') = (run A D keys s ops).bind fun s => run A D keys s ops' := by
  induction ops generalizing s with
  | nil => rfl
  | cons o ops ih =>
    simp only [List.cons_append, run]
    cases step A D keys s o with
    | none => rfl
    | some s1 => exact ih

/-- The server follows the future of `protocol_accept`. -/
theorem follows {v : Visitor} : ∀ (ps : List (List IoAns)) (s : State A D keys) (b : Bool) (st : (server A D (v.exchanges keys)).State), s.phase = .settingUp v st →
    match (server A D (v.exchanges keys)).run (.pending b st) ps with
    | .pending _ st' => run A D keys s (ps.map .poll) = some { s with phase := .settingUp v st' }
    | .done w r => ∃ k, k ≤ ps.length ∧ run A D keys s ((ps.take k).map .poll) = some { s with phase := .accepting, served := s.served ++ [{ visitor := v, w := w, r := r }] }
    | .failed _ _ => ∃ k, k ≤ ps.length ∧ run A D keys s ((ps.take k).map .poll) = some { s with phase := .ended (.ok ()) }
    | .panicked _ => True := by
  intro ps
  induction ps with
  | nil =>
    intro s b st hp
    simp only [Connecting.run, List.map_nil, run]
    rw [← hp]
  | cons as ps ih =>
    intro s b st hp
    simp only [Connecting.run]
    cases hx : (server A D (v.exchanges keys)).poll ((server A D (v.exchanges keys)).setSock st { (server A D (v.exchanges keys)).sock st with answers := as }) with
    | pending b' st' =>
      have hs : step A D keys s (.poll as) = some { s with phase := .settingUp v st' } := by simp only [step, hp, hx]
      have := ih { s with phase := .settingUp v st' } b' st' rfl
      revert this
      generalize (server A D (v.exchanges keys)).run (.pending b' st') ps = y
      intro this
      cases y with
      | pending b2 st2 => simp only [List.map_cons, run, hs, Option.bind_some]; exact this
      | done w r => obtain ⟨k, h1, h2⟩ := this; exact ⟨k + 1, by simp; omega, by simp only [List.take_succ_cons, List.map_cons, run, hs, Option.bind_some]; exact h2⟩
      | failed e k => obtain ⟨k, h1, h2⟩ := this; exact ⟨k + 1, by simp; omega, by simp only [List.take_succ_cons, List.map_cons, run, hs, Option.bind_some]; exact h2⟩
      | panicked k => trivial
    | done w r =>
      have : (server A D (v.exchanges keys)).run (Setup.done w r) ps = .done w r := by cases ps <;> rfl
      rw [this]
      exact ⟨1, by simp, by simp [run, step, hp, hx]⟩
    | failed e k =>
      have : (server A D (v.exchanges keys)).run (Setup.failed e k) ps = .failed e k := by cases ps <;> rfl
      rw [this]
      exact ⟨1, by simp, by simp [run, step, hp, hx]⟩
    | panicked k =>
      have : (server A D (v.exchanges keys)).run (Setup.panicked k) ps = .panicked k := by cases ps <;> rfl
      rw [this]
      trivial

theorem ended_step {s s' : State A D keys} {o : Op} {r : Except Error Unit} (h : s.phase = .ended r) (hs : step A D keys s o = some s') : s'.phase = .ended r ∧ s'.served = s.served := by
  cases o <;> simp [step, h] at hs
  subst hs
  exact ⟨rfl, rfl⟩

theorem ended_run : ∀ (ops : List Op) {s s' : State A D keys} {r : Except Error Unit}, s.phase = .ended r → run A D keys s ops = some s' → s'.phase = .ended r ∧ s'.served = s.served := by
  intro ops
  induction ops with
  | nil => intro s s' r h hs; cases hs; exact ⟨h, rfl⟩
  | cons o ops ih =>
    intro s s' r h hs
    obtain ⟨s1, h1, h2⟩ := Option.bind_eq_some_iff.1 hs
    obtain ⟨g1, g2⟩ := ended_step h h1
    obtain ⟨g3, g4⟩ := ih g1 h2
    exact ⟨g3, g4.trans g2⟩

end Bromine.LayerServer
