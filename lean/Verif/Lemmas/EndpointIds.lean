import Verif.Lemmas.EndpointFresh
import Verif.Lemmas.EndpointTask
/-
What follows for an endpoint if the ids it creates are different.
-/
namespace Bromine.Endpoint
open Spec

variable {CB : Type} {cfg : Config CB}

theorem created_mem {s : State CB} (h : Reachable cfg s) :
    (∀ r q, s.reqs r = some q → q.event.id ∈ s.created) ∧ (∀ c, ∀ x ∈ s.out c, x.event.id ∈ s.created) := by
  refine reachable_induction (P := fun s => (∀ r q, s.reqs r = some q → q.event.id ∈ s.created) ∧
    (∀ c, ∀ x ∈ s.out c, x.event.id ∈ s.created)) (by simp) ?_ h
  intro s op s' hre ih hs
  constructor
  · intro r q hq
    have hold := ih.1 r
    have hsub : ∀ i, i ∈ s.created → i ∈ s'.created := fun i hi => hs.ext.created.subset hi
    cases hs with
    | request r0 ctx c ref kind ns name payload id hr hc =>
      rcases upd_some hq with ⟨rfl, rfl⟩ | ⟨_, hq⟩
      · simp [ctxEvent_id]
      · exact hsub _ (hold q hq)
    | _ =>
      first
      | exact hsub _ (hold q hq)
      | (rcases upd_some hq with ⟨rfl, rfl⟩ | ⟨_, hq⟩
         · have := hold _ (by assumption)
           exact hsub _ this
         · exact hsub _ (hold q hq))
  · intro c x hx
    have hold := ih.2 c x
    have hsub : ∀ i, i ∈ s.created → i ∈ s'.created := fun i hi => hs.ext.created.subset hi
    have hreq := ih.1
    cases hs
    all_goals try exact hsub _ (hold hx)
    all_goals simp only [upd_apply] at hx
    all_goals grind [ctxEvent_id, finalEvent_id]

/-- With different ids, no two emitted events and no two requests have the same id, and the event of a request is
emitted only by that request. -/
structure Unique (s : State CB) : Prop where
  out : ∀ (c c' i j : Nat) (x y : OutEntry), (s.out c)[i]? = some x → (s.out c')[j]? = some y → x.event.id = y.event.id → c = c' ∧ i = j
  reqs : ∀ r r' q q', s.reqs r = some q → s.reqs r' = some q' → q.event.id = q'.event.id → r = r'
  unsent : ∀ r q, s.reqs r = some q → q.phase = .registered → ∀ c, ∀ x ∈ s.out c, x.event.id ≠ q.event.id
  own : ∀ r q, s.reqs r = some q → ∀ c, ∀ x ∈ s.out c, x.event.id = q.event.id →
    c = q.conn ∧ x = { origin := q.origin, event := q.event }

theorem getElem?_upd {α : Type} {f : Nat → List α} {a c : Nat} {x y : α} {i : Nat}
    (h : (upd f a (f a ++ [x]) c)[i]? = some y) :
    ((f c)[i]? = some y) ∨ (c = a ∧ i = (f a).length ∧ y = x) := by
  simp only [upd_apply] at h
  split at h
  · rename_i hc
    subst hc
    rw [List.getElem?_append] at h
    split at h
    · exact .inl h
    · rename_i hi
      right
      cases hk : i - (f c).length with
      | zero => simp [hk] at h; exact ⟨rfl, by omega, h.symm⟩
      | succ n => simp [hk] at h
  · exact .inl h

theorem mem_upd {α : Type} {f : Nat → List α} {a c : Nat} {x y : α} (h : y ∈ upd f a (f a ++ [x]) c) :
    y ∈ f c ∨ (c = a ∧ y = x) := by
  simp only [upd_apply] at h
  split at h
  · rename_i hc
    subst hc
    simp only [List.mem_append, List.mem_singleton] at h
    rcases h with h | h
    · exact .inl h
    · exact .inr ⟨rfl, h⟩
  · exact .inl h

/-- Adding an event with a new id. -/
theorem out_unique_append {s : State CB} (h : ∀ (c c' i j : Nat) (x y : OutEntry), (s.out c)[i]? = some x → (s.out c')[j]? = some y →
      x.event.id = y.event.id → c = c' ∧ i = j) (a : Nat) (z : OutEntry) (hz : ∀ c, ∀ x ∈ s.out c, x.event.id ≠ z.event.id) :
    ∀ (c c' i j : Nat) (x y : OutEntry), (upd s.out a (s.out a ++ [z]) c)[i]? = some x → (upd s.out a (s.out a ++ [z]) c')[j]? = some y →
      x.event.id = y.event.id → c = c' ∧ i = j := by
  intro c c' i j x y hx hy hid
  rcases getElem?_upd hx with hx1 | ⟨rfl, rfl, rfl⟩ <;> rcases getElem?_upd hy with hy1 | ⟨rfl, rfl, rfl⟩
  · exact h c c' i j x y hx1 hy1 hid
  · exact absurd hid (hz c x (List.mem_of_getElem? hx1))
  · exact absurd hid.symm (hz c' y (List.mem_of_getElem? hy1))
  · exact ⟨rfl, rfl⟩

theorem unique {s : State CB} (h : Reachable cfg s) : s.created.Nodup → Unique s := by
  refine reachable_induction (P := fun s => s.created.Nodup → Unique s)
    (fun _ => ⟨by simp, by simp, by simp, by simp⟩) ?_ h
  intro s op s' hre ih hs hnd
  have hnd0 : s.created.Nodup := hnd.sublist hs.ext.created.sublist
  have ih := ih hnd0
  have hcm := created_mem hre
  -- a step that only changes phases of requests that are not registered afterwards
  have reqsame : (∀ r q, s'.reqs r = some q → ∃ q0, s.reqs r = some q0 ∧ q0.event = q.event ∧ q0.conn = q.conn ∧
      q0.origin = q.origin ∧ (q.phase = .registered → q0.phase = .registered)) → s'.out = s.out → Unique s' := by
    intro hr ho
    refine ⟨by rw [ho]; exact ih.out, ?_, ?_, ?_⟩
    · intro r r' q q' hq hq' hid
      obtain ⟨p, h1, h2, _⟩ := hr r q hq
      obtain ⟨p', h1', h2', _⟩ := hr r' q' hq'
      exact ih.reqs r r' p p' h1 h1' (by rw [h2, h2', hid])
    · intro r q hq hp c x hx
      obtain ⟨p, h1, h2, h3, h4, h5⟩ := hr r q hq
      rw [ho] at hx
      rw [← h2]
      exact ih.unsent r p h1 (h5 hp) c x hx
    · intro r q hq c x hx hid
      obtain ⟨p, h1, h2, h3, h4, h5⟩ := hr r q hq
      rw [ho] at hx
      rw [← h2, ← h3, ← h4]
      exact ih.own r p h1 c x hx (by rw [h2, hid])
  -- a step that emits a new event
  have emitted : ∀ (a : Nat) (z : OutEntry), s'.reqs = s.reqs → s'.out = upd s.out a (s.out a ++ [z]) →
      z.event.id ∉ s.created → Unique s' := by
    intro a z hr ho hz
    have hzo : ∀ c, ∀ x ∈ s.out c, x.event.id ≠ z.event.id := by
      intro c x hx hid
      exact hz (hid ▸ hcm.2 c x hx)
    have hzr : ∀ r q, s.reqs r = some q → z.event.id ≠ q.event.id := by
      intro r q hq hid
      exact hz (hid ▸ hcm.1 r q hq)
    refine ⟨by rw [ho]; exact out_unique_append ih.out a z hzo, by rw [hr]; exact ih.reqs, ?_, ?_⟩
    · intro r q hq hp c x hx
      rw [hr] at hq
      rw [ho] at hx
      rcases mem_upd hx with hx | ⟨rfl, rfl⟩
      · exact ih.unsent r q hq hp c x hx
      · exact hzr r q hq
    · intro r q hq c x hx hid
      rw [hr] at hq
      rw [ho] at hx
      rcases mem_upd hx with hx | ⟨rfl, rfl⟩
      · exact ih.own r q hq c x hx hid
      · exact absurd hid (hzr r q hq)
  cases hs with
  | emit ctx c ref ns name payload id hc =>
    refine emitted c _ rfl rfl ?_
    rw [ctxEvent_id]
    exact fun hm => by simp [List.nodup_append] at hnd; exact hnd.2 id hm rfl
  | respond t k res id hk hp =>
    refine emitted k.conn _ rfl rfl ?_
    rw [finalEvent_id]
    exact fun hm => by simp [List.nodup_append] at hnd; exact hnd.2 id hm rfl
  | request r0 ctx c ref kind ns name payload id hr hc =>
    have hz : id ∉ s.created := fun hm => by simp [List.nodup_append] at hnd; exact hnd.2 id hm rfl
    have hzo : ∀ c, ∀ x ∈ s.out c, x.event.id ≠ id := fun c x hx hid => hz (hid ▸ hcm.2 c x hx)
    have hzr : ∀ r q, s.reqs r = some q → q.event.id ≠ id := fun r q hq hid => hz (hid ▸ hcm.1 r q hq)
    refine ⟨ih.out, ?_, ?_, ?_⟩
    · intro r r' q q' hq hq' hid
      rcases upd_some hq with ⟨rfl, rfl⟩ | ⟨_, hq1⟩ <;> rcases upd_some hq' with ⟨rfl, rfl⟩ | ⟨_, hq1'⟩
      · rfl
      · exact absurd (by simpa [ctxEvent_id] using hid.symm) (hzr r' q' hq1')
      · exact absurd (by simpa [ctxEvent_id] using hid) (hzr r q hq1)
      · exact ih.reqs r r' q q' hq1 hq1' hid
    · intro r q hq hp c x hx
      rcases upd_some hq with ⟨rfl, rfl⟩ | ⟨_, hq⟩
      · simpa [ctxEvent_id] using hzo c x hx
      · exact ih.unsent r q hq hp c x hx
    · intro r q hq c x hx hid
      rcases upd_some hq with ⟨rfl, rfl⟩ | ⟨_, hq⟩
      · exact absurd (by simpa [ctxEvent_id] using hid) (hzo c x hx)
      · exact ih.own r q hq c x hx hid
  | sent r0 q0 hq0 hp0 =>
    have hzo := ih.unsent r0 q0 hq0 hp0
    refine ⟨out_unique_append ih.out q0.conn _ hzo, ?_, ?_, ?_⟩
    · intro r r' q q' hq hq' hid
      rcases upd_some hq with ⟨rfl, rfl⟩ | ⟨_, hq1⟩ <;> rcases upd_some hq' with ⟨rfl, rfl⟩ | ⟨_, hq1'⟩
      · rfl
      · exact ih.reqs _ _ _ _ hq0 hq1' hid
      · exact ih.reqs _ _ _ _ hq1 hq0 hid
      · exact ih.reqs r r' q q' hq1 hq1' hid
    · intro r q hq hp c x hx
      rcases upd_some hq with ⟨rfl, rfl⟩ | ⟨hne, hq⟩
      · simp at hp
      · rcases mem_upd hx with hx | ⟨rfl, rfl⟩
        · exact ih.unsent r q hq hp c x hx
        · intro hid
          exact hne (ih.reqs _ _ _ _ hq hq0 hid.symm)
    · intro r q hq c x hx hid
      rcases mem_upd hx with hx1 | ⟨rfl, rfl⟩
      · rcases upd_some hq with ⟨rfl, rfl⟩ | ⟨hne, hq⟩
        · exact absurd hid (hzo c x hx1)
        · exact ih.own r q hq c x hx1 hid
      · rcases upd_some hq with ⟨rfl, rfl⟩ | ⟨hne, hq⟩
        · exact ⟨rfl, rfl⟩
        · exact absurd (ih.reqs _ _ _ _ hq hq0 hid.symm) hne
  | _ =>
    refine reqsame ?_ rfl
    intro r q hq
    first
    | exact ⟨q, hq, rfl, rfl, rfl, id⟩
    | (simp only [upd_apply] at hq
       grind)

end Bromine.Endpoint
