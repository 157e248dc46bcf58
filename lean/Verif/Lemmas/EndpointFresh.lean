import Verif.Lemmas.EndpointInv
/-
Invariants of an endpoint that hold as long as ids are not reused.
-/
namespace Bromine.Endpoint
open Spec

variable {CB : Type} {cfg : Config CB}

/-- A finished request that got its reply has no listener, and nor has one whose stream ended. -/
theorem finished_unlistened {s : State CB} (h : Reachable cfg s) :
    ∀ r q, s.reqs r = some q → q.phase = .finished .replied → ∀ g id, s.listeners g id ≠ some r := by
  refine reachable_induction
    (P := fun s => ∀ r q, s.reqs r = some q → q.phase = .finished .replied → ∀ g id, s.listeners g id ≠ some r)
    (by simp) ?_ h
  intro s op s' hre ih hs r q hq hp g id hl
  have hold := ih r
  have hri := (refInv hre).listener g id r
  cases hs with
  | finish r0 q0 last hq0 hp0 =>
    rcases upd_some hq with ⟨rfl, rfl⟩ | ⟨_, hq⟩
    · simp only [upd_apply] at hl
      grind [upd_apply]
    · simp only [upd_apply] at hl
      grind [upd_apply]
  | _ =>
    first
    | exact hold q hq hp g id hl
    | (simp only [upd_apply] at hq hl
       grind [upd_apply])

/-- As long as ids are not reused, every request that has not got its last reply has its listener, and no
request ever finds its channel closed. -/
theorem fresh_listener {s : State CB} (h : Reachable cfg s) : FreshIds cfg s →
    ∀ r q, s.reqs r = some q → (q.phase ≠ .finished .replied →
      s.listeners (cfg.group q.conn) q.event.id = some r) ∧ q.phase ≠ .closing none ∧ q.phase ≠ .finished .closed := by
  refine reachable_induction (P := fun s => FreshIds cfg s → ∀ r q, s.reqs r = some q →
    (q.phase ≠ .finished .replied → s.listeners (cfg.group q.conn) q.event.id = some r) ∧
      q.phase ≠ .closing none ∧ q.phase ≠ .finished .closed) (by simp) ?_ h
  intro s op s' hre ih hs hf r q hq
  have hfs := hf.of_ext hs.ext
  have hold := ih hfs r
  have hd := hf.distinct
  have hn := hf.noCollision
  cases hs with
  | request r0 ctx c ref kind ns name payload id hr hc =>
    rcases upd_some hq with ⟨rfl, rfl⟩ | ⟨hne, hq'⟩
    · simp [ctxEvent_id]
    · obtain ⟨h1, h2⟩ := hold q hq'
      refine ⟨fun hp => ?_, h2⟩
      have h1 := h1 hp
      have h2 := hd r r0 q _ hq (by simp; rfl)
      simp only [upd_apply, ctxEvent_id] at h2 ⊢
      grind [upd_apply]
  | finish r0 q0 last hq0 hp0 =>
    rcases upd_some hq with ⟨rfl, rfl⟩ | ⟨hne, hq'⟩
    · obtain ⟨h1, h2⟩ := hold q0 hq0
      cases last with
      | some e => simp
      | none => exact absurd hp0 h2.1
    · obtain ⟨h1, h2⟩ := hold q hq'
      refine ⟨fun hp => ?_, h2⟩
      have h1 := h1 hp
      have h2 := hd r r0 q _ hq (by simp; rfl)
      simp only [upd_apply] at h2 ⊢
      grind [upd_apply]
  | cleanup t k res sent hk hp0 =>
    obtain ⟨h1, h2⟩ := hold q hq
    refine ⟨fun hp => ?_, h2⟩
    have h1 := h1 hp
    have h2 := hn t _ r q (by simp; rfl) hq
    simp only [upd_apply] at h2 ⊢
    grind [upd_apply]
  | chanClosed r0 q0 hq0 hp0 hb hl hcl ph hph =>
    have := (ih hfs r0 q0 hq0).1 (by simp [hp0])
    exact absurd this hl
  | _ =>
    first
    | exact hold q hq
    | (simp only [upd_apply] at hq
       grind [upd_apply])

/-- The window of a request: from its registration until it ends, the received events that refer to it are
exactly the ones delivered to it. -/
theorem fresh_window {s : State CB} (h : Reachable cfg s) : FreshIds cfg s →
    ∀ r q, s.reqs r = some q → ∃ B C, s.processed.drop q.regAt = B ++ C ∧
      (∀ x ∈ B, answers cfg q x = true → x.dest = .reply r) ∧ (∀ x ∈ C, x.dest ≠ .reply r) ∧
      (q.alive = true → C = []) := by
  refine reachable_induction (P := fun s => FreshIds cfg s → ∀ r q, s.reqs r = some q →
    ∃ B C, s.processed.drop q.regAt = B ++ C ∧
      (∀ x ∈ B, answers cfg q x = true → x.dest = .reply r) ∧ (∀ x ∈ C, x.dest ≠ .reply r) ∧
      (q.alive = true → C = [])) (by simp) ?_ h
  intro s op s' hre ih hs hf r q hq
  have hfs := hf.of_ext hs.ext
  have hold := ih hfs r
  have hlis := fresh_listener hre hfs
  have hri := refInv hre
  have hlate := (reqInv hre).late
  -- an event that is not delivered to `r` is appended
  have key : ∀ (x : Entry) (q0 : Req), s.reqs r = some q0 → x.dest ≠ .reply r →
      (q0.alive = true → answers cfg q0 x = false) →
      ∃ B C, (s.processed ++ [x]).drop q0.regAt = B ++ C ∧
      (∀ x ∈ B, answers cfg q0 x = true → x.dest = .reply r) ∧ (∀ x ∈ C, x.dest ≠ .reply r) ∧
      (q0.alive = true → C = []) := by
    intro x q0 hq0 hx ha
    obtain ⟨B, C, h1, h2, h3, h4⟩ := hold q0 hq0
    rw [List.drop_append_of_le_length (hlate r q0 hq0).1, h1]
    by_cases hal : q0.alive = true
    · refine ⟨B ++ [x], [], by simp [h4 hal], ?_, by simp, by simp⟩
      intro y hy hay
      simp only [List.mem_append, List.mem_singleton] at hy
      rcases hy with hy | rfl
      · exact h2 y hy hay
      · simp [ha hal] at hay
    · refine ⟨B, C ++ [x], by simp, h2, ?_, fun h => absurd h hal⟩
      intro y hy
      simp only [List.mem_append, List.mem_singleton] at hy
      rcases hy with hy | rfl
      · exact h3 y hy
      · exact hx
  have alive_listener : ∀ r q, s.reqs r = some q → q.alive = true →
      s.listeners (cfg.group q.conn) q.event.id = some r := by
    intro r q hq ha
    refine (hlis r q hq).1 ?_
    intro hp
    simp [Req.alive, hp] at ha
  have noans : ∀ (q0 : Req) (c : Nat) (e : Event) (d : Dest), s.reqs r = some q0 → q0.alive = true →
      (∀ id, e.referenceId = some id → s.listeners (cfg.group c) id = none) →
      answers cfg q0 { conn := c, event := e, dest := d } = false := by
    intro q0 c e d hq0 ha hn
    refine Bool.eq_false_iff.2 fun hc => ?_
    simp only [answers, Bool.and_eq_true, decide_eq_true_eq] at hc
    have := hn _ hc.1
    rw [hc.2, alive_listener r q0 hq0 ha] at this
    cases this
  cases hs with
  | takeDiscard c t e rest hl hi hn hty =>
    exact key _ q hq (by simp) (fun ha => noans q c e _ hq ha hn)
  | takeHandler c e rest cb t hl hi hn hty hcb ht =>
    exact key _ q hq (by simp) (fun ha => noans q c e _ hq ha hn)
  | deliver c t r0 e q0 hl hq0 ha hb =>
    rcases upd_some hq with ⟨rfl, rfl⟩ | ⟨hne, hq'⟩
    · obtain ⟨B, C, h1, h2, h3, h4⟩ := hold q0 hq0
      simp only
      rw [List.drop_append_of_le_length (hlate r q0 hq0).1, h1]
      refine ⟨B ++ [{ conn := c, event := e, dest := .reply r }], [], by simp [h4 ha], ?_, by simp, by simp⟩
      intro y hy hay
      simp only [List.mem_append, List.mem_singleton] at hy
      rcases hy with hy | rfl
      · exact h2 y hy hay
      · rfl
    · refine key _ q hq' (by simpa using fun h => hne h.symm) fun hal => ?_
      refine Bool.eq_false_iff.2 fun hc => ?_
      simp only [answers, Bool.and_eq_true, decide_eq_true_eq] at hc
      obtain ⟨q1, h1, h2, h3⟩ := hri.sending c r0 e hl
      have := hfs.distinct r r0 q q1 hq' h1 (by rw [h3, hc.2]) (by rw [h2] at hc; simpa using hc.1.symm)
      exact hne this
  | deliverDead c r0 e q0 t hl hq0 ha ht =>
    refine key _ q hq (by simp) fun hal => ?_
    refine Bool.eq_false_iff.2 fun hc => ?_
    simp only [answers, Bool.and_eq_true, decide_eq_true_eq] at hc
    obtain ⟨q1, h1, h2, h3⟩ := hri.sending c r0 e hl
    have := hfs.distinct r r0 q q1 hq h1 (by rw [h3, hc.2]) (by rw [h2] at hc; simpa using hc.1.symm)
    subst this
    rw [hq] at hq0
    cases hq0
    rw [hal] at ha
    cases ha
  | request r0 ctx c ref kind ns name payload id hr hc =>
    rcases upd_some hq with ⟨rfl, rfl⟩ | ⟨_, hq⟩
    · exact ⟨[], [], by simp, by simp, by simp, by simp⟩
    · exact hold q hq
  | _ =>
    first
    | exact hold q hq
    | (rcases upd_some hq with ⟨rfl, rfl⟩ | ⟨_, hq⟩
       · rename_i q0 hq0 _
         obtain ⟨B, C, h1, h2, h3, h4⟩ := hold _ (by assumption)
         exact ⟨B, C, h1, h2, h3, by simp_all [Req.alive]⟩
       · exact hold q hq)

end Bromine.Endpoint
